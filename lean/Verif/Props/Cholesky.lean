import Verif.Algo.CholeskyLemmas
import Verif.Props.Dynamics
import Verif.Props.ForwardDynamics
import Verif.Props.Jacobian

/-! # C22: sparse Cholesky factorisation -/

set_option linter.unusedSectionVars false

namespace Pin
open Finset
variable {K : Type*}

section
variable [Field K] {s : Sys K}

/-- rows of the tree, in terms of joints -/
theorem below_joint (h : s.Packed) (hf : s.Full) (hc : Compact s.par s.n) {i j k l : ℕ} (hi1 : 1 ≤ i) (hi : i < s.n)
    (hj1 : 1 ≤ j) (hj : j < s.n) (hk : k < s.jnv i) (hl : l < s.jnv j) :
    Below (nvSubtreeFromRow s) (s.iv i + k) (s.iv j + l) ↔ (i = j ∧ k < l) ∨ (i ≠ j ∧ anc s.par i j) := by
  have h1 : s.iv i + k < s.nv := by have := h.le_nv hi1 hi; omega
  have h2 : s.iv j + l < s.nv := by have := h.le_nv hj1 hj; omega
  have e := anc_iff_below h hf hc h1 h2
  rw [anc_row h hf hi1 hi hk j hj1 hj l hl] at e
  unfold Below
  constructor
  · rintro ⟨a, b⟩
    rcases e.2 ⟨by omega, b⟩ with ⟨rfl, c⟩ | c
    · left; exact ⟨rfl, by omega⟩
    · exact Or.inr c
  · rintro (⟨rfl, c⟩ | c)
    · have := e.1 (Or.inl ⟨rfl, by omega⟩); exact ⟨by omega, this.2⟩
    · have := e.1 (Or.inr c)
      refine ⟨lt_of_le_of_ne this.1 fun hh => ?_, this.2⟩
      exact c.1 (h.inj hi1 hi hj1 hj hk hl hh).1

theorem branch_below (h : s.Packed) (hf : s.Full) (hc : Compact s.par s.n) {M : ℕ → ℕ → K} (h0 : s.BranchZero M)
    {r c : ℕ} (hrc : r < c) (hcv : c < s.nv) (hb : ¬ Below (nvSubtreeFromRow s) r c) : M r c = 0 := by
  obtain ⟨i, k, hi1, hi, hk, rfl⟩ := h.cover (show r < s.nv by omega)
  obtain ⟨j, l, hj1, hj, hl, rfl⟩ := h.cover hcv
  rw [below_joint h hf hc hi1 hi hj1 hj hk hl] at hb
  have hij : i ≠ j := by
    rintro rfl; exact hb (Or.inl ⟨rfl, by omega⟩)
  have ha : ¬ anc s.par i j := fun ha => hb (Or.inr ⟨hij, ha⟩)
  refine h0 i j hi1 hi hj1 hj ha (fun hb' => ?_) k hk l hl
  have hji := anc_le h.par i hi hb'
  have := h.mono hj1 (lt_of_le_of_ne hji (Ne.symm hij)) hi
  omega

theorem Sys.TreeTri.unitSp (h : s.Packed) (hf : s.Full) (hc : Compact s.par s.n) {U : ℕ → ℕ → K} (hU : s.TreeTri U) :
    UnitSp s.nv (nvSubtreeFromRow s) U := by
  intro r hr c hcv hb
  rcases Nat.lt_trichotomy r c with hlt | rfl | hlt
  · rw [if_neg (by omega)]; exact branch_below h hf hc hU.branch hlt hcv hb
  · rw [if_pos rfl]; exact hU.diag r hr
  · rw [if_neg (by omega)]; exact hU.lower r c hlt hr

theorem UnitSp.treeTri (h : s.Packed) (hf : s.Full) (hc : Compact s.par s.n) {U : ℕ → ℕ → K}
    (hU : UnitSp s.nv (nvSubtreeFromRow s) U) : s.TreeTri U := by
  refine ⟨fun r hr => ?_, fun r c hlt hr => ?_, ?_⟩
  · rw [hU r hr r hr (by unfold Below; omega), if_pos rfl]
  · rw [hU r hr c (by omega) (by unfold Below; omega), if_neg (by omega)]
  · intro i j hi1 hi hj1 hj ha hb k hk l hl
    have hij : i ≠ j := by rintro rfl; exact ha (anc_refl h.par hi)
    rw [hU _ (by have := h.le_nv hi1 hi; omega) _ (by have := h.le_nv hj1 hj; omega), if_neg]
    · intro e; exact hij (h.inj hi1 hi hj1 hj hk hl e).1
    · rw [below_joint h hf hc hi1 hi hj1 hj hk hl]; tauto

theorem decompose_unitSp (h : s.Packed) (hf : s.Full) (hc : Compact s.par s.n) (M : ℕ → ℕ → K) {d : Chol K}
    (hU : s.TreeTri d.U) : UnitSp s.nv (nvSubtreeFromRow s) (decompose s M d).U := by
  intro r hr c hcv hb
  rw [(decompose_ok h hf hc M d).out r c (by tauto)]
  exact hU.unitSp h hf hc r hr c hcv hb

/-- **The factorisation.** For every matrix with the zeros of the tree (the lower triangle is not read) and
whatever `D` and `Dinv` held, if the pivots are not zero then `U D Uᵀ = M`, with `U` unit upper triangular and with
the zeros of the tree. -/
theorem C22_decompose (h : s.Packed) (hf : s.Full) (hc : crbaCheck s.par s.n = true) (M : ℕ → ℕ → K)
    (h0 : s.BranchZero M) (d : Chol K) (hU : s.TreeTri d.U) :
    s.TreeTri (decompose s M d).U ∧
    ((∀ r < s.nv, (decompose s M d).D r ≠ 0) →
      (∀ r < s.nv, (decompose s M d).Dinv r * (decompose s M d).D r = 1) ∧
      ∀ r < s.nv, ∀ c < s.nv,
        ∑ k ∈ range s.nv, (decompose s M d).U r k * (decompose s M d).D k * (decompose s M d).U c k = symUpper M r c) := by
  have hc := (crbaCheck_iff h.par).1 hc
  have hl := lam_rows h hf hc
  have hok := decompose_ok h hf hc M d
  have hu := decompose_unitSp h hf hc M hU
  refine ⟨hu.treeTri h hf hc, fun hD => ⟨fun r hr => ?_, ?_⟩⟩
  · rw [hok.Dinv r (by omega) hr, one_div, inv_mul_cancel₀ (hD r hr)]
  · have key : ∀ r c, r ≤ c → c < s.nv → ∑ k ∈ range s.nv,
        (decompose s M d).U r k * (decompose s M d).D k * (decompose s M d).U c k = M r c := fun r c hrc hcv =>
      chol_factor hl hok hu (fun r c a b e => branch_below h hf hc h0 a b e) hrc hcv (Or.inr (hD c hcv))
    intro r hr c hcv
    unfold symUpper
    split
    · rename_i hrc; exact key r c hrc hcv
    · rename_i hrc
      rw [← key c r (by omega) hr]
      exact sum_congr rfl fun k _ => by ring

/-- The factorisation does not depend on what `U`, `D` and `Dinv` held before. -/
theorem C22_decompose_history (h : s.Packed) (hf : s.Full) (hc : crbaCheck s.par s.n = true) (M : ℕ → ℕ → K)
    (d d' : Chol K) (hU : s.TreeTri d.U) (hU' : s.TreeTri d'.U) :
    ∀ r < s.nv, (decompose s M d).D r = (decompose s M d').D r ∧ (decompose s M d).Dinv r = (decompose s M d').Dinv r ∧
      ∀ i < s.nv, (decompose s M d).U i r = (decompose s M d').U i r := by
  have hc := (crbaCheck_iff h.par).1 hc
  have hl := lam_rows h hf hc
  have a := decompose_ok h hf hc M d
  have b := decompose_ok h hf hc M d'
  have ua := decompose_unitSp h hf hc M hU
  have ub := decompose_unitSp h hf hc M hU'
  generalize decompose s M d = x at *
  generalize decompose s M d' = y at *
  have key : ∀ m r, r < s.nv → s.nv - r ≤ m → x.D r = y.D r ∧ x.Dinv r = y.Dinv r ∧ ∀ i < s.nv, x.U i r = y.U i r := by
    intro m
    induction m with
    | zero => intro r hr hm; omega
    | succ m ih =>
      intro r hr hm
      have hle := hl.le r hr
      have hs : ∀ i, i < s.nv → ∑ c ∈ Ico (r + 1) (r + nvSubtreeFromRow s r), x.U i c * (x.U r c * x.D c)
          = ∑ c ∈ Ico (r + 1) (r + nvSubtreeFromRow s r), y.U i c * (y.U r c * y.D c) := by
        intro i hi
        apply sum_congr rfl
        intro c hcm
        rw [mem_Ico] at hcm
        obtain ⟨e1, -, e2⟩ := ih c (by omega) (by omega)
        rw [e1, e2 i hi, e2 r hr]
      have eD : x.D r = y.D r := by rw [a.D r (by omega) hr, b.D r (by omega) hr, hs r hr]
      have eI : x.Dinv r = y.Dinv r := by rw [a.Dinv r (by omega) hr, b.Dinv r (by omega) hr, eD]
      refine ⟨eD, eI, fun i hi => ?_⟩
      by_cases hb : Below (nvSubtreeFromRow s) i r
      · rw [a.U i r (by omega) hr hb, b.U i r (by omega) hr hb, hs i hi, eI]
      · rw [ua i hi r hr hb, ub i hi r hr hb]
  exact fun r hr => key s.nv r hr (by omega)

/-- **Products and triangular solves** with any unit triangular `U` with the zeros of the tree. -/
theorem C22_products (h : s.Packed) (hf : s.Full) (hc : crbaCheck s.par s.n = true) (U : ℕ → ℕ → K)
    (hU : s.TreeTri U) (v : ℕ → K) {r : ℕ} (hr : r < s.nv) :
    cholUv s U v r = ∑ k ∈ range s.nv, U r k * v k ∧
    cholUtv s U v r = ∑ k ∈ range s.nv, U k r * v k ∧
    ∑ k ∈ range s.nv, U r k * cholUiv s U v k = v r ∧
    ∑ k ∈ range s.nv, U k r * cholUtiv s U v k = v r := by
  have hc := (crbaCheck_iff h.par).1 hc
  have hl := lam_rows h hf hc
  have hu := hU.unitSp h hf hc
  exact ⟨Uv_spec hl hu v hr, Utv_spec hl hu v hr, Uiv_spec hl hu v hr, Utiv_spec hl hu v hr⟩

/-- **`Mv`** multiplies by the symmetric matrix of which `data.M` holds the upper triangle. -/
theorem C22_Mv (h : s.Packed) (hf : s.Full) (hc : crbaCheck s.par s.n = true) (M : ℕ → ℕ → K)
    (h0 : s.BranchZero M) (vin vout : ℕ → K) {r : ℕ} (hr : r < s.nv) :
    cholMv s M vin vout r = ∑ c ∈ range s.nv, symUpper M r c * vin c := by
  have hc := (crbaCheck_iff h.par).1 hc
  exact Mv_spec (lam_rows h hf hc) (fun r c a b e => branch_below h hf hc h0 a b e) vin vout hr

theorem mulVec_factor (h : s.Packed) (hf : s.Full) (hc : crbaCheck s.par s.n = true) {M : ℕ → ℕ → K}
    (h0 : s.BranchZero M) {d : Chol K} (hU : s.TreeTri d.U) (hD : ∀ r < s.nv, (decompose s M d).D r ≠ 0)
    (x : ℕ → K) {r : ℕ} (hr : r < s.nv) :
    ∑ c ∈ range s.nv, symUpper M r c * x c
      = ∑ k ∈ range s.nv, (decompose s M d).U r k * ((decompose s M d).D k *
          ∑ c ∈ range s.nv, (decompose s M d).U c k * x c) := by
  have hfac := ((C22_decompose h hf hc M h0 d hU).2 hD).2
  have : ∀ c ∈ range s.nv, symUpper M r c * x c = ∑ k ∈ range s.nv,
      (decompose s M d).U r k * ((decompose s M d).D k * ((decompose s M d).U c k * x c)) := by
    intro c hcm
    rw [← hfac r hr c (mem_range.1 hcm), sum_mul]
    exact sum_congr rfl fun k _ => by ring
  rw [sum_congr rfl this, sum_comm]
  apply sum_congr rfl
  intro k _
  rw [mul_sum, mul_sum]

/-- **`UDUtv`** multiplies by `M`. -/
theorem C22_UDUtv (h : s.Packed) (hf : s.Full) (hc : crbaCheck s.par s.n = true) (M : ℕ → ℕ → K)
    (h0 : s.BranchZero M) (d : Chol K) (hU : s.TreeTri d.U) (hD : ∀ r < s.nv, (decompose s M d).D r ≠ 0)
    (v : ℕ → K) {r : ℕ} (hr : r < s.nv) :
    cholUDUtv s (decompose s M d) v r = ∑ c ∈ range s.nv, symUpper M r c * v c := by
  have hT := (C22_decompose h hf hc M h0 d hU).1
  rw [mulVec_factor h hf hc h0 hU hD v hr]
  unfold cholUDUtv
  rw [(C22_products h hf hc _ hT _ hr).1]
  apply sum_congr rfl
  intro k hk
  rw [mem_range] at hk
  rw [if_pos hk, (C22_products h hf hc _ hT _ hk).2.1]
  ring

/-- **`solve`** multiplies by the inverse of `M`, on either side. -/
theorem C22_solve (h : s.Packed) (hf : s.Full) (hc : crbaCheck s.par s.n = true) (M : ℕ → ℕ → K)
    (h0 : s.BranchZero M) (d : Chol K) (hU : s.TreeTri d.U) (hD : ∀ r < s.nv, (decompose s M d).D r ≠ 0)
    (b x : ℕ → K) {r : ℕ} (hr : r < s.nv) :
    ∑ c ∈ range s.nv, symUpper M r c * cholSolve s (decompose s M d) b c = b r ∧
    ((∀ k < s.nv, b k = ∑ c ∈ range s.nv, symUpper M k c * x c) → cholSolve s (decompose s M d) b r = x r) := by
  have hT := (C22_decompose h hf hc M h0 d hU).1
  have hDi := ((C22_decompose h hf hc M h0 d hU).2 hD).1
  have sol : ∀ (b : ℕ → K) r, r < s.nv →
      ∑ c ∈ range s.nv, symUpper M r c * cholSolve s (decompose s M d) b c = b r := by
    intro b r hr
    rw [mulVec_factor h hf hc h0 hU hD _ hr]
    have : ∀ k ∈ range s.nv, (decompose s M d).U r k * ((decompose s M d).D k *
          ∑ c ∈ range s.nv, (decompose s M d).U c k * cholSolve s (decompose s M d) b c)
        = (decompose s M d).U r k * cholUiv s (decompose s M d).U b k := by
      intro k hk
      rw [mem_range] at hk
      unfold cholSolve
      rw [(C22_products h hf hc _ hT _ hk).2.2.2]
      rw [if_pos hk]
      have := hDi k hk
      linear_combination (decompose s M d).U r k * cholUiv s (decompose s M d).U b k * this
    rw [sum_congr rfl this, (C22_products h hf hc _ hT _ hr).2.2.1]
  refine ⟨sol b r hr, fun hb => ?_⟩
  have inv := inv_comm (A := symUpper M) (B := fun r c => cholSolve s (decompose s M d) (fun k => if k = c then 1 else 0) r)
    (N := s.nv) (fun r hr c _ => sol _ r hr)
  -- both vectors have the same image, and `M` has a left inverse
  have e : ∀ k < s.nv, ∑ c ∈ range s.nv, symUpper M k c * (cholSolve s (decompose s M d) b c - x c) = 0 := by
    intro k hk
    simp only [mul_sub, sum_sub_distrib]
    rw [sol b k hk, hb k hk, sub_self]
  have : ∀ (y : ℕ → K), (∀ k < s.nv, ∑ c ∈ range s.nv, symUpper M k c * y c = 0) → y r = 0 := by
    intro y hy
    have e1 : y r = ∑ c ∈ range s.nv, (if r = c then 1 else 0) * y c := by
      simp only [ite_mul, one_mul, zero_mul]
      rw [sum_ite_eq, if_pos (mem_range.2 hr)]
    rw [e1]
    have e2 : ∀ c ∈ range s.nv, (if r = c then (1 : K) else 0) * y c = ∑ k ∈ range s.nv,
        cholSolve s (decompose s M d) (fun m => if m = k then 1 else 0) r * (symUpper M k c * y c) := by
      intro c hcm
      rw [← inv r hr c (mem_range.1 hcm), sum_mul]
      exact sum_congr rfl fun k _ => by ring
    rw [sum_congr rfl e2, sum_comm]
    apply sum_eq_zero
    intro k hk
    rw [← mul_sum, hy k (mem_range.1 hk), mul_zero]
  exact sub_eq_zero.1 (this _ e)

/-- **`computeMinv`** returns the inverse of `M`, whatever the output held. -/
theorem C22_computeMinv (h : s.Packed) (hf : s.Full) (hc : crbaCheck s.par s.n = true) (M : ℕ → ℕ → K)
    (h0 : s.BranchZero M) (d : Chol K) (hU : s.TreeTri d.U) (hD : ∀ r < s.nv, (decompose s M d).D r ≠ 0)
    (X : ℕ → ℕ → K) {r c : ℕ} (hr : r < s.nv) (hcv : c < s.nv) :
    (∑ k ∈ range s.nv, symUpper M r k * cholMinv s (decompose s M d) X k c = if r = c then 1 else 0) ∧
    (∑ k ∈ range s.nv, cholMinv s (decompose s M d) X r k * symUpper M k c = if r = c then 1 else 0) ∧
    cholMinv s (decompose s M d) X r c = cholMinv s (decompose s M d) X c r := by
  have hT := (C22_decompose h hf hc M h0 d hU).1
  have hcp := (crbaCheck_iff h.par).1 hc
  have hl := lam_rows h hf hcp
  have hu := hT.unitSp h hf hcp
  set Y : ℕ → ℕ → K := fun r c => cholSolve s (decompose s M d) (fun k => if k = c then 1 else 0) r with hY
  have right : ∀ r < s.nv, ∀ c < s.nv, ∑ k ∈ range s.nv, symUpper M r k * Y k c = if r = c then 1 else 0 :=
    fun r hr c _ => (C22_solve h hf hc M h0 d hU hD _ (fun _ => 0) hr).1
  have left := inv_comm right
  have msym : ∀ a b, symUpper M a b = symUpper M b a := by
    intro a b
    unfold symUpper
    rcases Nat.lt_trichotomy a b with e | rfl | e
    · rw [if_pos e.le, if_neg (by omega)]
    · rfl
    · rw [if_neg (by omega), if_pos e.le]
  -- `Y = Y M Yᵀ = Yᵀ`
  have ysym : ∀ a < s.nv, ∀ b < s.nv, Y a b = Y b a := by
    intro a ha b hb
    have e1 : ∑ k ∈ range s.nv, Y a k * ∑ l ∈ range s.nv, symUpper M k l * Y b l = Y b a := by
      have : ∀ k ∈ range s.nv, Y a k * ∑ l ∈ range s.nv, symUpper M k l * Y b l
          = ∑ l ∈ range s.nv, Y a k * symUpper M k l * Y b l := by
        intro k _; rw [mul_sum]; exact sum_congr rfl fun l _ => by ring
      rw [sum_congr rfl this, sum_comm]
      have : ∀ l ∈ range s.nv, ∑ k ∈ range s.nv, Y a k * symUpper M k l * Y b l = (if a = l then 1 else 0) * Y b l := by
        intro l hlm; rw [← sum_mul, left a ha l (mem_range.1 hlm)]
      rw [sum_congr rfl this]
      simp only [ite_mul, one_mul, zero_mul]
      rw [sum_ite_eq, if_pos (mem_range.2 ha)]
    rw [← e1]
    have : ∀ k ∈ range s.nv, Y a k * ∑ l ∈ range s.nv, symUpper M k l * Y b l = Y a k * if b = k then 1 else 0 := by
      intro k hk
      rw [← left b hb k (mem_range.1 hk)]
      congr 1
      exact sum_congr rfl fun l _ => by rw [msym, mul_comm]
    rw [sum_congr rfl this]
    simp only [mul_ite, mul_one, mul_zero]
    rw [sum_ite_eq, if_pos (mem_range.2 hb)]
  have eq : ∀ a < s.nv, ∀ b < s.nv, cholMinv s (decompose s M d) X a b = Y a b := by
    have up : ∀ a < s.nv, ∀ b < s.nv, a ≤ b → cholMinv s (decompose s M d) X a b = Y a b := by
      intro a ha b hb hab
      obtain ⟨v, hv⟩ := minv_upper (decompose s M d) X a ha b hb hab
      rw [hv, miunit_spec hl hu hb v hab]
    intro a ha b hb
    rcases Nat.lt_or_ge b a with hlt | hge
    · rw [minv_lower _ _ ha hlt, up b hb a ha hlt.le, ysym b hb a ha]
    · exact up a ha b hb hge
  refine ⟨?_, ?_, ?_⟩
  · rw [sum_congr rfl fun k hk => by rw [eq k (mem_range.1 hk) c hcv]]; exact right r hr c hcv
  · rw [sum_congr rfl fun k hk => by rw [eq r hr k (mem_range.1 hk)]]; exact left r hr c hcv
  · rw [eq r hr c hcv, eq c hcv r hr, ysym r hr c hcv]

end

section
variable [Field K] [LinearOrder K] [IsStrictOrderedRing K] {s : Sys K}

/-- **Pivots of a positive definite matrix are positive**, so the factorisation never fails on one. -/
theorem C22_positive (h : s.Packed) (hf : s.Full) (hc : crbaCheck s.par s.n = true) (M : ℕ → ℕ → K)
    (h0 : s.BranchZero M) (d : Chol K) (hU : s.TreeTri d.U)
    (hpd : ∀ w : ℕ → K, (∃ r, r < s.nv ∧ w r ≠ 0) →
      0 < ∑ r ∈ range s.nv, ∑ c ∈ range s.nv, w r * symUpper M r c * w c) :
    ∀ r < s.nv, 0 < (decompose s M d).D r := by
  have hcp := (crbaCheck_iff h.par).1 hc
  have hl := lam_rows h hf hcp
  have hok := decompose_ok h hf hcp M d
  have hu := decompose_unitSp h hf hcp M hU
  generalize decompose s M d = x at *
  have key : ∀ m r, r < s.nv → s.nv - r ≤ m → 0 < x.D r := by
    intro m
    induction m with
    | zero => intro r hr hm; omega
    | succ m ih =>
      intro j hj hm
      -- the vector with `Uᵀ w = e_j`
      set w := cholUtiv s x.U (fun k => if k = j then 1 else 0) with hw
      have hcol : ∀ c < s.nv, ∑ k ∈ range s.nv, x.U k c * w k = if c = j then 1 else 0 :=
        fun c hcv => Utiv_spec hl hu _ hcv
      have hsupp : ∀ c < s.nv, w c ≠ 0 → j ≤ c := by
        intro c
        induction c using Nat.strong_induction_on with
        | _ c ihc =>
          intro hcv hne
          by_contra hlt
          apply hne
          have e := hcol c hcv
          rw [hu.col hcv, if_neg (by omega), sum_eq_zero, add_zero] at e
          · exact e
          · intro k hk
            rw [mem_range] at hk
            split
            · rename_i hb
              have : w k = 0 := by
                by_contra hk'
                have := ihc k hb.1 hk hk'
                have := hb.1
                omega
              rw [this, mul_zero]
            · rfl
      have hwj : w j = 1 := by
        have e := hcol j hj
        rw [hu.col hj, if_pos rfl, sum_eq_zero, add_zero] at e
        · exact e
        · intro k hk
          rw [mem_range] at hk
          split
          · rename_i hb
            have : w k = 0 := by
              by_contra hk'
              have := hsupp k hk hk'
              have := hb.1
              omega
            rw [this, mul_zero]
          · rfl
      have fac : ∀ r c, r < s.nv → c < s.nv → w r * symUpper M r c * w c
          = ∑ k ∈ range s.nv, (x.U r k * w r) * (x.D k * (x.U c k * w c)) := by
        intro r c hr hcv
        by_cases hr0 : w r = 0
        · rw [hr0]; simp
        by_cases hc0 : w c = 0
        · rw [hc0]; simp
        have hrj := hsupp r hr hr0
        have hcj := hsupp c hcv hc0
        have up : ∀ r c, j ≤ r → r ≤ c → c < s.nv → ∑ k ∈ range s.nv, x.U r k * x.D k * x.U c k = M r c := by
          intro r c h1 h2 h3
          apply chol_factor hl hok hu (fun r c a b e => branch_below h hf hcp h0 a b e) h2 h3
          by_cases e : r = c
          · exact Or.inl e
          · exact Or.inr (ih c h3 (by omega)).ne'
        have : symUpper M r c = ∑ k ∈ range s.nv, x.U r k * x.D k * x.U c k := by
          unfold symUpper
          split
          · rename_i hle; rw [up r c hrj hle hcv]
          · rename_i hle
            rw [← up c r hcj (by omega) hr]
            exact sum_congr rfl fun k _ => by ring
        rw [this, mul_sum, sum_mul]
        exact sum_congr rfl fun k _ => by ring
      have hpos := hpd w ⟨j, hj, by rw [hwj]; exact one_ne_zero⟩
      have e : ∑ r ∈ range s.nv, ∑ c ∈ range s.nv, w r * symUpper M r c * w c = x.D j := by
        rw [sum_congr rfl fun r hr => sum_congr rfl fun c hcm => fac r c (mem_range.1 hr) (mem_range.1 hcm)]
        rw [sum_congr rfl fun r _ => sum_comm, sum_comm]
        have : ∀ k ∈ range s.nv, ∑ r ∈ range s.nv, ∑ c ∈ range s.nv, (x.U r k * w r) * (x.D k * (x.U c k * w c))
            = if k = j then x.D k else 0 := by
          intro k hk
          have e1 := hcol k (mem_range.1 hk)
          simp only [← mul_sum, ← sum_mul]
          rw [e1]
          split <;> simp
        rw [sum_congr rfl this, sum_ite_eq' (range s.nv) j, if_pos (mem_range.2 hj)]
      rwa [e] at hpos
  exact fun r hr => key s.nv r hr (by omega)

variable [HasEps K]

/-- **From a model to accelerations.** For every depth-first model with massive bodies, joints with independent
columns and non-negative armature, `crba` followed by `decompose` and `solve` always succeeds and returns the
acceleration that `rnea` maps to the given torque. -/
theorem C22_dynamics (h : s.Packed) (hf : s.Full) (hc : crbaCheck s.par s.n = true) (hm : s.MassesOk) (d d' d'' : Data K)
    {q : ℕ → K} (hq : s.At q) (h0 : s.BranchZero d.M)
    (hY : ∀ i, 1 ≤ i → i < s.n → 0 < (s.Y i).mass ∧ ∀ w, w ≠ 0 → 0 < (s.Y i).rotI.vtiv w)
    (hS : ∀ i, 1 ≤ i → i < s.n → ∀ x, comb (s.S q i) (s.jnv i) x = 0 → ∀ k, k < s.jnv i → x k = 0)
    (ha : ∀ r, r < s.nv → 0 ≤ s.arm r) (x : Chol K) (hU : s.TreeTri x.U) (v tau : ℕ → K) {r : ℕ} (hr : r < s.nv) :
    0 < (decompose s (crbaWorld s d q).M x).D r ∧
    (rnea s d' q v (cholSolve s (decompose s (crbaWorld s d q).M x)
      (fun k => tau k - (nonLinearEffects s d'' q v).nle k))).tau r = tau r := by
  have hb := (C13_branch_zero h hc hm d hq h0).1
  have hpos := C22_positive h hf hc _ hb x hU (C13_pd h hc hm d hq h0 hY hS ha)
  refine ⟨hpos r hr, ?_⟩
  rw [(C12_inverse_dynamics h hc hm d d' d'' hq h0 v _ hr).1,
    (C22_solve h hf hc _ hb x hU (fun k hk => (hpos k hk).ne') _ (fun _ => 0) hr).1]
  ring

end

/-! ## the hypotheses are met -/

theorem treeTri_init [Field K] {s : Sys K} (h : s.Packed) : s.TreeTri (Chol.init (K := K)).U := by
  refine ⟨fun r _ => if_pos rfl, fun r c hc _ => if_neg (by omega), ?_⟩
  intro i j hi1 hi hj1 hj ha _ k hk l hl
  refine if_neg fun e => ?_
  have := (h.inj hi1 hi hj1 hj hk hl e).1
  subst this
  exact ha (anc_refl h.par hi)

example : Ex.sysA.Packed ∧ Ex.sysA.Full ∧ crbaCheck Ex.sysA.par Ex.sysA.n = true ∧ Ex.sysA.MassesOk ∧
    Ex.sysA.At Ex.qA ∧ Ex.sysA.BranchZero (Data.zero (K := ℚ)).M ∧ Ex.sysA.TreeTri (Chol.init (K := ℚ)).U ∧
    (∀ i, 1 ≤ i → i < Ex.sysA.n → 0 < (Ex.sysA.Y i).mass ∧ ∀ w, w ≠ 0 → 0 < (Ex.sysA.Y i).rotI.vtiv w) ∧
    (∀ i, 1 ≤ i → i < Ex.sysA.n → ∀ x, comb (Ex.sysA.S Ex.qA i) (Ex.sysA.jnv i) x = 0 →
      ∀ k, k < Ex.sysA.jnv i → x k = 0) ∧ (∀ r, r < Ex.sysA.nv → 0 ≤ Ex.sysA.arm r) := by
  refine ⟨Ex.sysA_packed, Ex.sysA_full, by decide, Ex.sysA_masses, Ex.sysA_at, fun _ _ _ _ _ _ _ _ _ _ _ _ => rfl,
    treeTri_init Ex.sysA_packed, fun i _ _ => ?_, Ex.sysA_cols, fun r _ => ?_⟩
  · simp only [Ex.sysA]
    split
    · exact Ex.iB_pd
    · exact Ex.iA_pd
  · simp only [Ex.sysA]; split <;> norm_num

end Pin
