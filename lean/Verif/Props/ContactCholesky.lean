import Verif.Algo.ContactCholeskySolve
import Verif.Props.Dynamics
import Verif.Spec.Contact

/-!
# C60: the contact Cholesky decomposition

`x` holds the factors that `compute` leaves, for constraints `ms` made by the constructors and a decomposition allocated
for them (`T0` is the memory that `allocate` does not initialise, `d` any previous factors). `A` is the KKT matrix
`ckkt (totalSize ms) (symUpper data.M) (stackJac s data ms) mus`.
-/

namespace Pin
open Finset
variable {K : Type*}

section
variable [Field K] {s : Sys K} {ms : List (RCM K)} {data : Data K} {mus : ℕ → K} {d x : Chol K} {T0 : ℕ → ℕ}

theorem made_ok (h : s.Packed) (hm : Made s ms) : ∀ m ∈ ms, m.Ok s := by
  intro m hmm
  obtain ⟨_, _, _, _, _, _, h1, h2, e⟩ := hm m hmm
  exact (make_ok h h1 h2 e).1

theorem fac_of (h : s.Packed) (hf : s.Full) (hc : crbaCheck s.par s.n = true) (hm : Made s ms) (h0 : s.BranchZero data.M)
    (hU : UnitTri (totalSize ms + s.nv) d.U) (hx : (CTab.alloc s ms T0).compute s data ms mus d = some x) :
    (CTab.alloc s ms T0).Fac (ckkt (totalSize ms) (symUpper data.M) (stackJac s data ms) mus) x := by
  have hc := (crbaCheck_iff h.par).1 hc
  unfold CTab.compute at hx
  have hn : ms.length = (CTab.alloc s ms T0).num := rfl
  rw [if_pos hn] at hx
  rw [← Option.some.inj hx]
  exact compute_fac h hf hc (alloc_ok h hf ms T0) (made_ok h hm) h0 mus hU

/-- **When it throws.** `compute` throws exactly if it is given another number of constraints than `allocate` was. -/
theorem C60_throws (s s' : Sys K) (ms ms' : List (RCM K)) (T0 : ℕ → ℕ) (data : Data K) (mus : ℕ → K) (d : Chol K) :
    (CTab.alloc s ms T0).compute s' data ms' mus d = none ↔ ms'.length ≠ ms.length := by
  unfold CTab.compute
  have : (CTab.alloc s ms T0).num = ms.length := rfl
  rw [this]
  by_cases e : ms'.length = ms.length
  · rw [if_pos e]; simp [e]
  · rw [if_neg e]; simp [e]

/-- **The factorisation.** If no pivot is zero then `matrix()`, which is `U D Uᵀ`, is the KKT matrix of the constraints;
`U` is unit upper triangular, so that the decomposition can be used again. -/
theorem C60_matrix (h : s.Packed) (hf : s.Full) (hc : crbaCheck s.par s.n = true) (hm : Made s ms) (h0 : s.BranchZero data.M)
    (hU : UnitTri (totalSize ms + s.nv) d.U) (hx : (CTab.alloc s ms T0).compute s data ms mus d = some x) :
    UnitTri (totalSize ms + s.nv) x.U ∧
    ((∀ r < totalSize ms + s.nv, x.D r ≠ 0) →
      (∀ r < totalSize ms + s.nv, x.Dinv r * x.D r = 1) ∧
      ∀ r < totalSize ms + s.nv, ∀ c < totalSize ms + s.nv, (CTab.alloc s ms T0).matrix x r c
        = ckkt (totalSize ms) (symUpper data.M) (stackJac s data ms) mus r c) := by
  have fac := fac_of h hf hc hm h0 hU hx
  have hc := (crbaCheck_iff h.par).1 hc
  have ht := alloc_ok h hf ms T0
  refine ⟨fac.triangular, fun hD => ?_⟩
  have hu := fac.udu (ht.lam h hf hc) (ckkt_zero h hf hc ht h0 _ mus) (ckkt_symm _ _ (symUpper_symm _)) hD
  exact ⟨fun r hr => by rw [mul_comm]; exact hu.inv r hr, hu.fac⟩

/-- **Products and triangular solves** with `U` and `Uᵀ`. -/
theorem C60_products (h : s.Packed) (hf : s.Full) (hc : crbaCheck s.par s.n = true) (hm : Made s ms) (h0 : s.BranchZero data.M)
    (hU : UnitTri (totalSize ms + s.nv) d.U) (hx : (CTab.alloc s ms T0).compute s data ms mus d = some x) (v : ℕ → K) {r : ℕ}
    (hr : r < totalSize ms + s.nv) :
    (CTab.alloc s ms T0).Uv x.U v r = ∑ k ∈ range (totalSize ms + s.nv), x.U r k * v k ∧
    (CTab.alloc s ms T0).Utv x.U v r = ∑ k ∈ range (totalSize ms + s.nv), x.U k r * v k ∧
    ∑ k ∈ range (totalSize ms + s.nv), x.U r k * (CTab.alloc s ms T0).Uiv x.U v k = v r ∧
    ∑ k ∈ range (totalSize ms + s.nv), x.U k r * (CTab.alloc s ms T0).Utiv x.U v k = v r := by
  have fac := fac_of h hf hc hm h0 hU hx
  have hc := (crbaCheck_iff h.par).1 hc
  have hl := ((alloc_ok h hf ms T0).lam h hf hc).seg
  exact ⟨CTab.Uv_spec hl fac.sp v hr, CTab.Utv_spec hl fac.sp v hr, CTab.Uiv_spec hl fac.sp v hr, CTab.Utiv_spec hl fac.sp v hr⟩

/-- **Solving.** `solve` returns the solution of the linear system of the KKT matrix, and there is no other. -/
theorem C60_solve (h : s.Packed) (hf : s.Full) (hc : crbaCheck s.par s.n = true) (hm : Made s ms) (h0 : s.BranchZero data.M)
    (hU : UnitTri (totalSize ms + s.nv) d.U) (hx : (CTab.alloc s ms T0).compute s data ms mus d = some x)
    (hD : ∀ r < totalSize ms + s.nv, x.D r ≠ 0) (b : ℕ → K) :
    (∀ r < totalSize ms + s.nv, ∑ c ∈ range (totalSize ms + s.nv),
      ckkt (totalSize ms) (symUpper data.M) (stackJac s data ms) mus r c * (CTab.alloc s ms T0).solve x b c = b r) ∧
    ∀ y : ℕ → K, (∀ r < totalSize ms + s.nv, ∑ c ∈ range (totalSize ms + s.nv),
      ckkt (totalSize ms) (symUpper data.M) (stackJac s data ms) mus r c * y c = b r) →
      ∀ r < totalSize ms + s.nv, y r = (CTab.alloc s ms T0).solve x b r := by
  have fac := fac_of h hf hc hm h0 hU hx
  have hc := (crbaCheck_iff h.par).1 hc
  have ht := alloc_ok h hf ms T0
  have hl := ht.lam h hf hc
  have hu := fac.udu hl (ckkt_zero h hf hc ht h0 _ mus) (ckkt_symm _ _ (symUpper_symm _)) hD
  have h1 : ∀ r < totalSize ms + s.nv, ∑ c ∈ range (totalSize ms + s.nv),
      ckkt (totalSize ms) (symUpper data.M) (stackJac s data ms) mus r c * (CTab.alloc s ms T0).solve x b c = b r :=
    fun r hr => CTab.solve_spec hl fac.sp hu b hr
  refine ⟨h1, fun y hy r hr => ?_⟩
  have hB := CTab.solve_inv hl fac.sp hu
  exact (hB.eq hy hr).trans (hB.eq h1 hr).symm

/-- **The inverse.** `inverse` writes the inverse of the KKT matrix, whatever the matrix held. -/
theorem C60_inverse (h : s.Packed) (hf : s.Full) (hc : crbaCheck s.par s.n = true) (hm : Made s ms) (h0 : s.BranchZero data.M)
    (hU : UnitTri (totalSize ms + s.nv) d.U) (hx : (CTab.alloc s ms T0).compute s data ms mus d = some x)
    (hD : ∀ r < totalSize ms + s.nv, x.D r ≠ 0) (X : ℕ → ℕ → K) :
    InverseOf (totalSize ms + s.nv) (ckkt (totalSize ms) (symUpper data.M) (stackJac s data ms) mus)
      ((CTab.alloc s ms T0).inverse x X) := by
  have fac := fac_of h hf hc hm h0 hU hx
  have hc := (crbaCheck_iff h.par).1 hc
  have ht := alloc_ok h hf ms T0
  have hl := ht.lam h hf hc
  have hA := ckkt_symm (totalSize ms) mus (J := stackJac s data ms) (symUpper_symm data.M)
  have hu := fac.udu hl (ckkt_zero h hf hc ht h0 _ mus) hA hD
  have hg := ht.seg h hf hc (made_ok h hm)
  apply InverseOf.mk'
  intro r hr c hcv
  exact (sum_congr rfl fun k hk => congrArg (_ * ·) (CTab.inverse_spec hl hg hA fac hu X (mem_range.1 hk) hcv)).trans
    (CTab.solve_inv hl fac.sp hu r hr c hcv).1

theorem blocks_of (h : s.Packed) (hf : s.Full) (hc : crbaCheck s.par s.n = true) (hm : Made s ms) (h0 : s.BranchZero data.M)
    (hU : UnitTri (totalSize ms + s.nv) d.U) (hx : (CTab.alloc s ms T0).compute s data ms mus d = some x)
    (hD : ∀ r < s.nv, x.D (totalSize ms + r) ≠ 0) :
    Blocks (totalSize ms) s.nv x (symUpper data.M) (stackJac s data ms) mus := by
  have fac := fac_of h hf hc hm h0 hU hx
  have hc := (crbaCheck_iff h.par).1 hc
  have ht := alloc_ok h hf ms T0
  exact fac.blocks (ht.lam h hf hc) (symUpper_symm _) (ckkt_zero h hf hc ht h0 _ mus) hD

/-- **Operational space.** `getInverseOperationalSpaceInertiaMatrix` is `J M⁻¹ Jᵀ + diag μ` and
`getOperationalSpaceInertiaMatrix` its inverse. -/
theorem C60_osim (h : s.Packed) (hf : s.Full) (hc : crbaCheck s.par s.n = true) (hm : Made s ms) (h0 : s.BranchZero data.M)
    (hU : UnitTri (totalSize ms + s.nv) d.U) (hx : (CTab.alloc s ms T0).compute s data ms mus d = some x)
    (hD : ∀ r < totalSize ms + s.nv, x.D r ≠ 0) :
    (∀ B, InverseOf s.nv (symUpper data.M) B → ∀ r < totalSize ms, ∀ c < totalSize ms, (CTab.alloc s ms T0).osimInv x r c
      = ∑ k ∈ range s.nv, ∑ l ∈ range s.nv, stackJac s data ms r k * B k l * stackJac s data ms c l + if r = c then mus r else 0) ∧
    InverseOf (totalSize ms) ((CTab.alloc s ms T0).osimInv x) ((CTab.alloc s ms T0).osim x) := by
  have hb := blocks_of h hf hc hm h0 hU hx (fun r hr => hD _ (by omega))
  have fac := fac_of h hf hc hm h0 hU hx
  constructor
  · intro B hB r hr c hcv
    rw [← hb.schur hB hr hcv]
    have e := hb.C r hr c hcv (Or.inr (hD _ (by omega)))
    have e1 : (CTab.alloc s ms T0).osimInv x r c = -∑ k ∈ range (totalSize ms), x.U r k * x.D k * x.U c k := by
      rw [← sum_neg_distrib]
      exact sum_congr rfl fun k _ => by ring
    rw [e1]
    by_cases h1 : r = c
    · rw [if_pos h1] at e ⊢; linear_combination -e
    · rw [if_neg h1] at e ⊢; linear_combination -e
  · have hu : Udu (totalSize ms) x.U (fun k => -x.D k) (fun k => -x.Dinv k) ((CTab.alloc s ms T0).osimInv x) := by
      refine ⟨fun r hr c hcv => sum_congr rfl fun k _ => by ring, fun k hk => ?_⟩
      have := fac.dinv (k := k) (Nat.lt_of_lt_of_le hk (Nat.le_add_right _ _)) (hD k (by omega))
      linear_combination this
    have hi := hu.inverse (unitUpperInv_inv hb.tri.head)
    intro r hr c hcv
    have e : ∀ r c, (CTab.alloc s ms T0).osim x r c
        = ∑ k ∈ range (totalSize ms), unitUpperInv (totalSize ms) x.U k r * -x.Dinv k * unitUpperInv (totalSize ms) x.U k c :=
      fun r c => sum_congr rfl fun k _ => by
        have e0 : (CTab.alloc s ms T0).nc = totalSize ms := rfl
        rw [e0]; ring
    have := hi r hr c hcv
    simp only [e]
    exact this

/-- **The blocks for the mass matrix.** `getInverseMassMatrix` is the inverse of the mass matrix, `getJMinv` is
`J M⁻¹`: only the pivots of the mass matrix matter. -/
theorem C60_mass_blocks (h : s.Packed) (hf : s.Full) (hc : crbaCheck s.par s.n = true) (hm : Made s ms)
    (h0 : s.BranchZero data.M) (hU : UnitTri (totalSize ms + s.nv) d.U)
    (hx : (CTab.alloc s ms T0).compute s data ms mus d = some x) (hD : ∀ r < s.nv, x.D (totalSize ms + r) ≠ 0) :
    InverseOf s.nv (symUpper data.M) ((CTab.alloc s ms T0).massInv x) ∧
    ∀ r < totalSize ms, ∀ c < s.nv, ∑ k ∈ range s.nv, (CTab.alloc s ms T0).jMinv x r k * symUpper data.M k c
      = stackJac s data ms r c := by
  have hb := blocks_of h hf hc hm h0 hU hx hD
  have hV := unitUpperInv_inv hb.tri.tail
  exact ⟨hb.mass.inverse hV, fun r hr c hcv => hb.jm hV hr hcv⟩

/-- **The Delassus operator.** The expression that `getDelassusCholeskyExpression` returns applies
`J M⁻¹ Jᵀ + diag μ`, and its `solve` inverts it. -/
theorem C60_delassus (h : s.Packed) (hf : s.Full) (hc : crbaCheck s.par s.n = true) (hm : Made s ms) (h0 : s.BranchZero data.M)
    (hU : UnitTri (totalSize ms + s.nv) d.U) (hx : (CTab.alloc s ms T0).compute s data ms mus d = some x)
    (hD : ∀ r < totalSize ms + s.nv, x.D r ≠ 0) (b : ℕ → K) {r : ℕ} (hr : r < totalSize ms) :
    (∀ B, InverseOf s.nv (symUpper data.M) B → (CTab.alloc s ms T0).delassusApply x b r
      = ∑ k ∈ range s.nv, stackJac s data ms r k * (∑ l ∈ range s.nv, B k l *
        ∑ i ∈ range (totalSize ms), stackJac s data ms i l * b i) + mus r * b r) ∧
    (CTab.alloc s ms T0).delassusApply x ((CTab.alloc s ms T0).delassusSolve x b) r = b r ∧
    (CTab.alloc s ms T0).delassusSolve x ((CTab.alloc s ms T0).delassusApply x b) r = b r := by
  have hb := blocks_of h hf hc hm h0 hU hx (fun r hr => hD _ (by omega))
  have fac := fac_of h hf hc hm h0 hU hx
  have ho := C60_osim h hf hc hm h0 hU hx hD
  have tri := hb.tri.head
  have enc : (CTab.alloc s ms T0).nc = totalSize ms := rfl
  have hap : ∀ b : ℕ → K, ∀ r < totalSize ms, (CTab.alloc s ms T0).delassusApply x b r
      = ∑ c ∈ range (totalSize ms), (CTab.alloc s ms T0).osimInv x r c * b c := by
    intro b r hr
    have e1 : ∀ k, k < totalSize ms → (b k + ∑ i ∈ range k, x.U i k * b i) = ∑ i ∈ range (totalSize ms), x.U i k * b i :=
      fun k hk => (tri.col hk b).symm
    have e2 : (CTab.alloc s ms T0).delassusApply x b r
        = ∑ k ∈ range (totalSize ms), x.U r k * ((∑ i ∈ range (totalSize ms), x.U i k * b i) * -x.D k) := by
      unfold CTab.delassusApply
      dsimp only
      rw [enc, tri.row hr, e1 r hr]
      congr 1
      refine sum_congr rfl fun c hcm => ?_
      rw [mem_Ico] at hcm
      rw [e1 c hcm.2]
    rw [e2]
    simp only [CTab.osimInv, sum_mul, mul_sum, enc]
    rw [sum_comm]
    exact sum_congr rfl fun c _ => sum_congr rfl fun k _ => by ring
  have hsol : ∀ b : ℕ → K, ∀ r < totalSize ms, ∑ c ∈ range (totalSize ms),
      (CTab.alloc s ms T0).osimInv x r c * (CTab.alloc s ms T0).delassusSolve x b c = b r := by
    intro b r hr
    have hu : Udu (totalSize ms) x.U (fun k => -x.D k) (fun k => -x.Dinv k) ((CTab.alloc s ms T0).osimInv x) := by
      refine ⟨fun r hr c hcv => sum_congr rfl fun k _ => by ring, fun k hk => ?_⟩
      have := fac.dinv (k := k) (Nat.lt_of_lt_of_le hk (Nat.le_add_right _ _)) (hD k (by omega))
      linear_combination this
    refine hu.solve (fun r hr => unitUpperSolve_spec tri b hr) (fun k hk => ?_) hr
    unfold CTab.delassusSolve
    rw [enc, unitUpperTrSolve_spec tri _ hk, if_pos hk]
  refine ⟨fun B hB => ?_, ?_, ?_⟩
  · rw [hap b r hr]
    have e : ∀ c ∈ range (totalSize ms), (CTab.alloc s ms T0).osimInv x r c * b c
        = (∑ k ∈ range s.nv, ∑ l ∈ range s.nv, stackJac s data ms r k * B k l * stackJac s data ms c l) * b c
          + if r = c then mus c * b c else 0 := by
      intro c hcm
      rw [ho.1 B hB r hr c (mem_range.1 hcm)]
      by_cases h1 : r = c
      · subst h1; rw [if_pos rfl, if_pos rfl]; ring
      · rw [if_neg h1, if_neg h1]; ring
    rw [sum_congr rfl e, sum_add_distrib, sum_ite_eq (range (totalSize ms)) r, if_pos (mem_range.2 hr)]
    congr 1
    simp only [sum_mul, mul_sum]
    rw [sum_comm]
    refine sum_congr rfl fun k _ => ?_
    rw [sum_comm]
    exact sum_congr rfl fun l _ => sum_congr rfl fun c _ => by ring
  · rw [hap _ r hr, hsol b r hr]
  · have e : ∀ r < totalSize ms, ∑ c ∈ range (totalSize ms), (CTab.alloc s ms T0).osimInv x r c * b c
        = (CTab.alloc s ms T0).delassusApply x b r := fun r hr => (hap b r hr).symm
    rw [ho.2.eq (hsol _) hr, ho.2.eq e hr]

/-- **The sub-decomposition.** `getMassMatrixChoeslkyDecomposition` returns what `cholesky::decompose` computes for the
same mass matrix, and the tables of a decomposition with no constraint. -/
theorem C60_massPart (h : s.Packed) (hf : s.Full) (hc : crbaCheck s.par s.n = true) (hm : Made s ms) (h0 : s.BranchZero data.M)
    (hU : UnitTri (totalSize ms + s.nv) d.U) (hx : (CTab.alloc s ms T0).compute s data ms mus d = some x) (T1 : ℕ → ℕ)
    (d' : Chol K) (hU' : s.TreeTri d'.U) :
    ((CTab.alloc s ms T0).massPart x s T1).1.nc = 0 ∧
    ∀ r < s.nv, ((CTab.alloc s ms T0).massPart x s T1).2.D r = (decompose s data.M d').D r ∧
      ((CTab.alloc s ms T0).massPart x s T1).2.Dinv r = (decompose s data.M d').Dinv r ∧
      ∀ i < s.nv, ((CTab.alloc s ms T0).massPart x s T1).2.U i r = (decompose s data.M d').U i r := by
  have fac := fac_of h hf hc hm h0 hU hx
  have hc := (crbaCheck_iff h.par).1 hc
  exact ⟨rfl, fac.massPart h hf hc (alloc_ok h hf ms T0) d' hU'⟩

/-- **No trace of the past.** The factors do not depend on those of earlier calls nor on the memory that `allocate`
leaves uninitialised. -/
theorem C60_history (h : s.Packed) (hf : s.Full) (hc : crbaCheck s.par s.n = true) (hm : Made s ms) (h0 : s.BranchZero data.M)
    (hU : UnitTri (totalSize ms + s.nv) d.U) (hx : (CTab.alloc s ms T0).compute s data ms mus d = some x)
    {d' x' : Chol K} {T1 : ℕ → ℕ} (hU' : UnitTri (totalSize ms + s.nv) d'.U)
    (hx' : (CTab.alloc s ms T1).compute s data ms mus d' = some x') : ∀ r < totalSize ms + s.nv,
    x.D r = x'.D r ∧ x.Dinv r = x'.Dinv r ∧ ∀ i < totalSize ms + s.nv, x.U i r = x'.U i r := by
  have fac := fac_of h hf hc hm h0 hU hx
  have fac' := fac_of h hf hc hm h0 hU' hx'
  have hc := (crbaCheck_iff h.par).1 hc
  have ht := alloc_ok h hf ms T0
  have ht' := alloc_ok h hf ms T1
  obtain ⟨_, a⟩ := fac.ok
  obtain ⟨_, b⟩ := fac'.ok
  have hsz : ∀ r < totalSize ms + s.nv, (CTab.alloc s ms T1).sz r = (CTab.alloc s ms T0).sz r := by
    intro r hr
    unfold CTab.sz
    by_cases h1 : r < totalSize ms
    · exact (if_pos h1).trans (if_pos h1).symm
    · refine (if_neg h1).trans (Eq.trans ?_ (if_neg h1).symm)
      have e0 := ht.nvt (r - totalSize ms) (by omega)
      have e1 := ht'.nvt (r - totalSize ms) (by omega)
      have e : totalSize ms + (r - totalSize ms) = r := by omega
      rw [show (CTab.alloc s ms T0).nc = totalSize ms from rfl, e] at e0
      rw [show (CTab.alloc s ms T1).nc = totalSize ms from rfl, e] at e1
      rw [e0, e1]
  have hbel : ∀ i j, j < totalSize ms + s.nv → (Below (CTab.alloc s ms T1).sz i j ↔ Below (CTab.alloc s ms T0).sz i j) := by
    intro i j hj
    unfold Below
    constructor
    · rintro ⟨p, q⟩; rw [hsz i (by omega)] at q; exact ⟨p, q⟩
    · rintro ⟨p, q⟩; rw [← hsz i (by omega)] at q; exact ⟨p, q⟩
  have b' : CholOk (totalSize ms + s.nv) (CTab.alloc s ms T0).sz (ckkt (totalSize ms) (symUpper data.M) (stackJac s data ms) mus)
      0 x'.U x' := by
    refine ⟨fun j p q => ?_, b.Dinv, fun i j p q hb => ?_, fun _ _ _ => rfl⟩
    · rw [← hsz j q]; exact b.D j p q
    · rw [← hsz j q]; exact b.U i j p q ((hbel i j q).2 hb)
  have sb : UnitSp (totalSize ms + s.nv) (CTab.alloc s ms T0).sz x'.U := fun r hr c hcv hb =>
    fac'.sp r hr c hcv (fun z => hb ((hbel r c hcv).1 z))
  exact CholOk.unique (ht.lam h hf hc).seg a b' fac.sp sb

/-- **Changing the damping.** `updateDamping` leaves the factors that `compute` would have left with the new damping. -/
theorem C60_updateDamping (h : s.Packed) (hf : s.Full) (hc : crbaCheck s.par s.n = true) (hm : Made s ms)
    (h0 : s.BranchZero data.M) (hU : UnitTri (totalSize ms + s.nv) d.U)
    (hx : (CTab.alloc s ms T0).compute s data ms mus d = some x) {mus' : ℕ → K} {d' x' : Chol K}
    (hU' : UnitTri (totalSize ms + s.nv) d'.U) (hx' : (CTab.alloc s ms T0).compute s data ms mus' d' = some x') :
    ∀ r < totalSize ms + s.nv, ((CTab.alloc s ms T0).updateDamping mus' x).D r = x'.D r ∧
      ((CTab.alloc s ms T0).updateDamping mus' x).Dinv r = x'.Dinv r ∧
      ∀ i < totalSize ms + s.nv, ((CTab.alloc s ms T0).updateDamping mus' x).U i r = x'.U i r := by
  have fac := fac_of h hf hc hm h0 hU hx
  have fac' := fac_of h hf hc hm h0 hU' hx'
  have hc := (crbaCheck_iff h.par).1 hc
  have ht := alloc_ok h hf ms T0
  exact CTab.Fac.unique (ht.lam h hf hc).seg (fac.damp h hf hc ht (made_ok h hm) mus') fac'

theorem stack_split (s : Sys K) (data : Data K) (ms : List (RCM K)) : ∀ r < totalSize ms, ∃ pre m post r', ms = pre ++ m :: post ∧
    r = (pre.map fun m => m.type.dim).sum + r' ∧ r' < m.type.dim ∧
    ∀ k, stackJac s data ms r k = m.jacobian s data (m.calc data) (fun _ _ => 0) r' k := by
  induction ms with
  | nil => intro r hr; exact absurd hr (by unfold totalSize; simp)
  | cons m ms ih =>
    intro r hr
    rw [totalSize_cons] at hr
    have es : ∀ k, stackJac s data (m :: ms) r k = if r < m.type.dim then
        m.jacobian s data (m.calc data) (fun _ _ => 0) r k else stackJac s data ms (r - m.type.dim) k := fun k => rfl
    by_cases h1 : r < m.type.dim
    · exact ⟨[], m, ms, r, rfl, by simp, h1, fun k => by rw [es, if_pos h1]⟩
    · obtain ⟨pre, m', post, r', e1, e2, e3, e4⟩ := ih (r - m.type.dim) (by omega)
      refine ⟨m :: pre, m', post, r', by rw [e1]; rfl, ?_, e3, fun k => by rw [es, if_neg h1, e4]⟩
      rw [List.map_cons, List.sum_cons]
      omega

/-- the Jacobian in the KKT matrix is the one that `getConstraintsJacobian` writes into a matrix of zeros -/
theorem C60_jacobian (h : s.Packed) (hm : Made s ms) (hw : data.oMi 0 = 1) {r : ℕ} (hr : r < totalSize ms) (k : ℕ) :
    stackJac s data ms r k = getConstraintsJacobian ms data (fun _ _ => 0) r k := by
  obtain ⟨pre, m, post, r', e1, e2, e3, e4⟩ := stack_split s data ms r hr
  obtain ⟨_, _, _, _, _, _, h1, h2, e⟩ := hm m (by rw [e1]; simp)
  rw [e4, e1, e2, C59_stack h hw _ pre post h1 h2 e e3]

end

section
variable [Field K] [LinearOrder K] [IsStrictOrderedRing K] {s : Sys K} {ms : List (RCM K)} {data : Data K} {mus : ℕ → K}
  {d x : Chol K} {T0 : ℕ → ℕ}

/-- **The factorisation succeeds.** If the mass matrix is positive definite, and the damping is positive or it is
non-negative and the constraints independent, then the pivots of the mass matrix are positive and those of the
constraints negative: none is zero. -/
theorem C60_pivots (h : s.Packed) (hf : s.Full) (hc : crbaCheck s.par s.n = true) (hm : Made s ms) (h0 : s.BranchZero data.M)
    (hU : UnitTri (totalSize ms + s.nv) d.U) (hx : (CTab.alloc s ms T0).compute s data ms mus d = some x)
    (hpd : ∀ w : ℕ → K, (∃ r, r < s.nv ∧ w r ≠ 0) →
      0 < ∑ r ∈ range s.nv, ∑ c ∈ range s.nv, w r * symUpper data.M r c * w c)
    (hmu : (∀ i < totalSize ms, 0 < mus i) ∨
      ((∀ i < totalSize ms, 0 ≤ mus i) ∧ FullRank s.nv (totalSize ms) (stackJac s data ms))) :
    (∀ r < s.nv, 0 < x.D (totalSize ms + r)) ∧ (∀ r < totalSize ms, x.D r < 0) ∧
    ∀ r < totalSize ms + s.nv, x.D r ≠ 0 := by
  have fac := fac_of h hf hc hm h0 hU hx
  have hcp := (crbaCheck_iff h.par).1 hc
  have ht := alloc_ok h hf ms T0
  have h1 : ∀ r < s.nv, 0 < x.D (totalSize ms + r) := by
    intro r hr
    have := (fac.massPart h hf hcp ht Chol.init (treeTri_init h) r hr).1
    rw [show (CTab.alloc s ms T0).nc = totalSize ms from rfl] at this
    rw [this]
    exact C22_positive h hf hc data.M h0 Chol.init (treeTri_init h) hpd r hr
  have h2 : ∀ r < totalSize ms, x.D r < 0 := fac.negative (ht.lam h hf hcp) (symUpper_symm _)
    (ckkt_zero h hf hcp ht h0 _ mus) (fun r hr => (h1 r hr).ne') hpd hmu
  refine ⟨h1, h2, fun r hr => ?_⟩
  by_cases h3 : r < totalSize ms
  · exact (h2 r h3).ne
  · have := h1 (r - totalSize ms) (by omega)
    rw [show totalSize ms + (r - totalSize ms) = r by omega] at this
    exact this.ne'

variable [HasEps K]

theorem crbaWorld_keeps (s : Sys K) (d : Data K) (q : ℕ → K) :
    (crbaWorld s d q).J = (fwd (crbaWorldFwd s q) s.n { d with oYcrb := upd d.oYcrb 0 0 }).J ∧
    (crbaWorld s d q).oMi = (fwd (crbaWorldFwd s q) s.n { d with oYcrb := upd d.oYcrb 0 0 }).oMi := by
  unfold crbaWorld addArmature
  dsimp only
  generalize fwd (crbaWorldFwd s q) s.n { d with oYcrb := upd d.oYcrb 0 0 } = e
  exact (bwd_proj (fun _ => ()) (fun e' : Data K => e'.J = e.J ∧ e'.oMi = e.oMi) (step := crbaWorldBwd s)
    (step' := fun _ _ => ()) ⟨rfl, rfl⟩ (fun i e' _ _ he => ⟨he, rfl⟩)).1

/-- after `crba` in the world convention the Jacobian of the constraints is the one that follows
`computeJointJacobians` -/
theorem C60_crba_jacobian (h : s.Packed) (hm : Made s ms) (d0 d1 : Data K) (q : ℕ → K) {r k : ℕ} (hr : r < totalSize ms)
    (hk : k < s.nv) : stackJac s (crbaWorld s d0 q) ms r k = stackJac s (computeJointJacobians s d1 q) ms r k := by
  obtain ⟨hw, -⟩ := crbaWorldFwd_ok h q (d := { d0 with oYcrb := upd d0.oYcrb 0 0 }) (upd_self d0.oYcrb 0 0)
  obtain ⟨hpl, hJ⟩ := jac_ok h d1 q
  obtain ⟨e1, e2⟩ := crbaWorld_keeps s d0 q
  obtain ⟨pre, m, post, r', e3, e4, e5, e6⟩ := stack_split s (crbaWorld s d0 q) ms r hr
  have ok := made_ok h hm m (by rw [e3]; simp)
  have key : ∀ (l : List (RCM K)), (∀ m ∈ l, m.Ok s) → ∀ r, stackJac s (crbaWorld s d0 q) l r k
      = stackJac s (computeJointJacobians s d1 q) l r k := by
    intro l
    induction l with
    | nil => intro _ r; rfl
    | cons m l ih =>
      intro hl r
      have ok := hl m (by simp)
      have es : ∀ d : Data K, stackJac s d (m :: l) r k = if r < m.type.dim then
        m.jacobian s d (m.calc d) (fun _ _ => 0) r k else stackJac s d l (r - m.type.dim) k := fun d => rfl
      rw [es, es, ih (fun m' hm' => hl m' (by simp [hm']))]
      have ec : m.calc (crbaWorld s d0 q) = m.calc (computeJointJacobians s d1 q) := by
        rw [calc_eq hpl ok.j1 ok.j2]
        rw [← calc_eq hw.pl ok.j1 ok.j2]
        unfold RCM.calc
        rw [e2]
      have eJ : (crbaWorld s d0 q).J k = (computeJointJacobians s d1 q).J k := by
        obtain ⟨i, l, i1, hi, hl, rfl⟩ := h.cover hk
        rw [e1, hw.J i i1 hi l hl, hJ i i1 hi l hl]
      rw [jacobian_entry, jacobian_entry, ec, eJ]
  exact key ms (made_ok h hm) r

/-- **From a model to constrained accelerations.** For a depth-first model with massive bodies, joints with independent
columns and non-negative armature, after `crba` in the world convention and `compute` with a positive damping `μ` (or a
non-negative one if the constraints are independent), `solve` returns for `(γ, τ)` the only `(λ, a)` such that
`M a + Jᵀ λ = τ` and `J a - μ λ = γ`, where `M` is the mass matrix of the model. -/
theorem C60_crba (h : s.Packed) (hf : s.Full) (hc : crbaCheck s.par s.n = true) (hms : s.MassesOk) (d0 d1 : Data K)
    {q : ℕ → K} (hq : s.At q) (h0 : s.BranchZero d0.M) (hy : s.Heavy q) (hm : Made s ms)
    (hU : UnitTri (totalSize ms + s.nv) d.U)
    (hx : (CTab.alloc s ms T0).compute s (crbaWorld s d0 q) ms mus d = some x)
    (hmu : (∀ i < totalSize ms, 0 < mus i) ∨ ((∀ i < totalSize ms, 0 ≤ mus i) ∧
      FullRank s.nv (totalSize ms) (stackJac s (computeJointJacobians s d1 q) ms)))
    (γ τ lam a : ℕ → K) :
    let b := fun r => if r < totalSize ms then γ r else τ (r - totalSize ms)
    let J := stackJac s (computeJointJacobians s d1 q) ms
    ((∀ r < totalSize ms, ∑ k ∈ range s.nv, J r k * a k - mus r * lam r = γ r) ∧
      (∀ r < s.nv, s.massForm q (Sys.unit r) a + ∑ i ∈ range (totalSize ms), J i r * lam i = τ r)) ↔
    (∀ r < totalSize ms, lam r = (CTab.alloc s ms T0).solve x b r) ∧
      ∀ r < s.nv, a r = (CTab.alloc s ms T0).solve x b (totalSize ms + r) := by
  intro b J
  have hb := (C13_branch_zero h hc hms d0 hq h0).1
  have hJ : ∀ r < totalSize ms, ∀ k < s.nv, stackJac s (crbaWorld s d0 q) ms r k = J r k :=
    fun r hr k hk => C60_crba_jacobian h hm d0 d1 q hr hk
  have hmu' : (∀ i < totalSize ms, 0 < mus i) ∨ ((∀ i < totalSize ms, 0 ≤ mus i) ∧
      FullRank s.nv (totalSize ms) (stackJac s (crbaWorld s d0 q) ms)) := by
    refine hmu.imp id fun ⟨h1, h2⟩ => ⟨h1, fun w hw => h2 w fun r hr => ?_⟩
    rw [← hw r hr]
    exact sum_congr rfl fun i hi => by rw [hJ i (mem_range.1 hi) r hr]
  have hD := (C60_pivots h hf hc hm hb hU hx (C13_pd h hc hms d0 hq h0 hy.body hy.cols hy.arm) hmu').2.2
  obtain ⟨hs1, hs2⟩ := C60_solve h hf hc hm hb hU hx hD b
  have hM : ∀ (w : ℕ → K) r, r < s.nv → ∑ k ∈ range s.nv, symUpper (crbaWorld s d0 q).M r k * w k = s.massForm q (Sys.unit r) w := by
    intro w r hr
    rw [Sys.massForm_coord h.wf]
    exact sum_congr rfl fun k hk => by rw [(C13_entries h hc hms d0 hq h0 hr (mem_range.1 hk)).1]
  have hrow : ∀ y : ℕ → K, (∀ r < totalSize ms, ∑ c ∈ range (totalSize ms + s.nv),
      ckkt (totalSize ms) (symUpper (crbaWorld s d0 q).M) (stackJac s (crbaWorld s d0 q) ms) mus r c * y c
        = ∑ k ∈ range s.nv, J r k * y (totalSize ms + k) - mus r * y r) ∧
      (∀ r < s.nv, ∑ c ∈ range (totalSize ms + s.nv),
      ckkt (totalSize ms) (symUpper (crbaWorld s d0 q).M) (stackJac s (crbaWorld s d0 q) ms) mus (totalSize ms + r) c * y c
        = s.massForm q (Sys.unit r) (fun k => y (totalSize ms + k)) + ∑ i ∈ range (totalSize ms), J i r * y i) := by
    intro y
    constructor
    · intro r hr
      rw [sum_split, sum_eq_single r]
      · unfold ckkt
        rw [if_pos hr, if_pos hr, if_pos rfl, add_comm, sub_eq_add_neg, neg_mul]
        congr 1
        refine sum_congr rfl fun k hk => ?_
        rw [if_pos hr, if_neg (by omega), Nat.add_sub_cancel_left, hJ r hr k (mem_range.1 hk)]
      · intro k hk hne
        unfold ckkt
        rw [if_pos hr, if_pos (mem_range.1 hk), if_neg (Ne.symm hne), zero_mul]
      · intro hn; exact absurd (mem_range.2 hr) hn
    · intro r hr
      rw [sum_split, add_comm, ← hM _ r hr]
      unfold ckkt
      congr 1
      · refine sum_congr rfl fun k _ => ?_
        rw [if_neg (by omega), if_neg (by omega), Nat.add_sub_cancel_left, Nat.add_sub_cancel_left]
      · refine sum_congr rfl fun i hi => ?_
        rw [if_neg (by omega), if_pos (mem_range.1 hi), Nat.add_sub_cancel_left, hJ i (mem_range.1 hi) r hr]
  have hb1 : ∀ r < totalSize ms, b r = γ r := fun r hr => if_pos hr
  have hb2 : ∀ r, b (totalSize ms + r) = τ r := fun r => by
    have : b (totalSize ms + r) = if totalSize ms + r < totalSize ms then γ (totalSize ms + r) else τ (totalSize ms + r - totalSize ms) := rfl
    rw [this, if_neg (by omega), Nat.add_sub_cancel_left]
  constructor
  · rintro ⟨p1, p2⟩
    set y := fun r => if r < totalSize ms then lam r else a (r - totalSize ms) with hyd
    have y1 : ∀ r < totalSize ms, y r = lam r := fun r hr => if_pos hr
    have y2 : ∀ r, y (totalSize ms + r) = a r := fun r => by
      have : y (totalSize ms + r) = if totalSize ms + r < totalSize ms then lam (totalSize ms + r) else a (totalSize ms + r - totalSize ms) := rfl
      rw [this, if_neg (by omega), Nat.add_sub_cancel_left]
    have hsol := hs2 y (by
      intro r hr
      by_cases h1 : r < totalSize ms
      · rw [(hrow y).1 r h1, hb1 r h1, ← p1 r h1, y1 r h1]
        congr 1
        exact sum_congr rfl fun k _ => by rw [y2]
      · obtain ⟨k, rfl⟩ := Nat.exists_eq_add_of_le (Nat.le_of_not_lt h1)
        rw [(hrow y).2 k (by omega), hb2 k, ← p2 k (by omega)]
        have e : (fun k => y (totalSize ms + k)) = a := funext y2
        rw [e]
        congr 1
        exact sum_congr rfl fun i hi => by rw [y1 i (mem_range.1 hi)])
    exact ⟨fun r hr => by rw [← hsol r (by omega), y1 r hr], fun r hr => by rw [← hsol _ (by omega), y2]⟩
  · rintro ⟨p1, p2⟩
    constructor
    · intro r hr
      rw [← hb1 r hr, ← hs1 r (by omega), (hrow _).1 r hr, p1 r hr]
      congr 1
      exact sum_congr rfl fun k hk => by rw [p2 k (mem_range.1 hk)]
    · intro r hr
      rw [← hb2 r, ← hs1 _ (by omega), (hrow _).2 r hr]
      congr 1
      · rw [Sys.massForm_coord h.wf, Sys.massForm_coord h.wf q _ (fun k => _)]
        exact sum_congr rfl fun k hk => by rw [p2 k (mem_range.1 hk)]
      · exact sum_congr rfl fun i hi => by rw [p1 i (mem_range.1 hi)]

end

/-! ## the hypotheses are met -/

/-- a constraint between two branches and one with the universe -/
def Ex.ccMs : List (RCM ℚ) :=
  [RCM.make.go Ex.sysA .CONTACT_3D 2 Ex.mB 4 Ex.mB .LOCAL, RCM.make.go Ex.sysA .CONTACT_6D 3 Ex.mB 0 1 .LOCAL_WORLD_ALIGNED]

theorem Ex.ccMs_made : Made Ex.sysA Ex.ccMs := by
  intro m hm
  simp only [Ex.ccMs, List.mem_cons, List.not_mem_nil, or_false] at hm
  rcases hm with rfl | rfl
  · exact ⟨.CONTACT_3D, 2, Ex.mB, 4, Ex.mB, .LOCAL, by decide, by decide, rfl⟩
  · exact ⟨.CONTACT_6D, 3, Ex.mB, 0, 1, .LOCAL_WORLD_ALIGNED, by decide, by decide, rfl⟩

theorem allocFactors_tri [Field K] (n : ℕ) (d : Chol K) : UnitTri n (allocFactors d).U := fun _ _ _ _ => rfl

example : Ex.sysA.Packed ∧ Ex.sysA.Full ∧ crbaCheck Ex.sysA.par Ex.sysA.n = true ∧ Ex.sysA.MassesOk ∧
    Ex.sysA.At Ex.qA ∧ Ex.sysA.BranchZero (Data.zero (K := ℚ)).M ∧ Ex.sysA.Heavy Ex.qA ∧ Made Ex.sysA Ex.ccMs ∧
    totalSize Ex.ccMs = 9 ∧ UnitTri (totalSize Ex.ccMs + Ex.sysA.nv) (allocFactors (Chol.init (K := ℚ))).U ∧
    (∃ x, (CTab.alloc Ex.sysA Ex.ccMs (fun _ => 0)).compute Ex.sysA (crbaWorld Ex.sysA Data.zero Ex.qA) Ex.ccMs (fun _ => 1)
      (allocFactors Chol.init) = some x) ∧ (∀ i < totalSize Ex.ccMs, (0 : ℚ) < (fun _ => 1 : ℕ → ℚ) i) ∧
    (Data.zero : Data ℚ).oMi 0 = 1 := by
  refine ⟨Ex.sysA_packed, Ex.sysA_full, by decide, Ex.sysA_masses, Ex.sysA_at, fun _ _ _ _ _ _ _ _ _ _ _ _ => rfl,
    ⟨fun i _ _ => ?_, Ex.sysA_cols, fun r _ => ?_⟩, Ex.ccMs_made, rfl, allocFactors_tri _ _, ⟨_, rfl⟩,
    fun i _ => one_pos, rfl⟩
  · simp only [Ex.sysA]
    split
    · exact Ex.iB_pd
    · exact Ex.iA_pd
  · simp only [Ex.sysA]; split <;> norm_num

end Pin
