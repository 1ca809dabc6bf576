import Verif.Algo.ContactDynamics
import Verif.Props.Cholesky
import Verif.Props.AllTerms
import Verif.Spec.Contact
import Mathlib.LinearAlgebra.Matrix.ToLinearEquiv

/-! # Linear algebra of `contact-dynamics.hxx` -/

set_option linter.unusedSectionVars false

namespace Pin
open Finset
variable {K : Type*}

section
variable [Field K] {s : Sys K}

/-- the solution of the dense solve -/
theorem lltSolve_spec {n : ℕ} {A : ℕ → ℕ → K} (hA : IsUnit (Matrix.of fun x y : Fin n => A x y).det) (b : ℕ → K)
    {i : ℕ} (hi : i < n) : ∑ j ∈ range n, A i j * lltSolve n A b j = b i := by
  rw [← Fin.sum_univ_eq_sum_range (fun j => A i j * lltSolve n A b j) n]
  have h : ∀ j : Fin n, lltSolve n A b j
      = ((Matrix.of fun x y : Fin n => A x y)⁻¹.mulVec fun x : Fin n => b x) j := fun j => by
    unfold lltSolve
    rw [dif_pos j.2]
  simp only [h]
  have e : ((Matrix.of fun x y : Fin n => A x y).mulVec
      ((Matrix.of fun x y : Fin n => A x y)⁻¹.mulVec fun x : Fin n => b x)) ⟨i, hi⟩ = b i := by
    rw [Matrix.mulVec_mulVec, Matrix.mul_nonsing_inv _ hA, Matrix.one_mulVec]
  rw [← e]
  rfl

end

section
variable [Field K] [LinearOrder K] [IsStrictOrderedRing K] {s : Sys K}

/-- a positive definite matrix is invertible -/
theorem pd_det {n : ℕ} {A : ℕ → ℕ → K}
    (h : ∀ w : ℕ → K, (∃ i, i < n ∧ w i ≠ 0) → 0 < ∑ i ∈ range n, ∑ j ∈ range n, w i * A i j * w j) :
    IsUnit (Matrix.of fun x y : Fin n => A x y).det := by
  rw [isUnit_iff_ne_zero]
  intro hd
  obtain ⟨v, hv, hm⟩ := Matrix.exists_mulVec_eq_zero_iff.2 hd
  let w : ℕ → K := fun i => if hi : i < n then v ⟨i, hi⟩ else 0
  have hw : ∀ j : Fin n, w j = v j := fun j => dif_pos j.2
  have hne : ∃ i, i < n ∧ w i ≠ 0 := by
    by_contra hc
    push Not at hc
    exact hv (funext fun j => by rw [← hw j]; exact hc j j.2)
  have := h w hne
  have z : ∀ i ∈ range n, ∑ j ∈ range n, w i * A i j * w j = 0 := fun i hi => by
    have e := congrFun hm ⟨i, mem_range.1 hi⟩
    rw [← Fin.sum_univ_eq_sum_range (fun j => w i * A i j * w j) n]
    have e' : ∑ j : Fin n, A i j * v j = 0 := e
    simp only [hw, mul_assoc]
    rw [← mul_sum, e', mul_zero]
  rw [sum_congr rfl z, sum_const_zero] at this
  exact lt_irrefl _ this

end

section
variable [Field K] {s : Sys K}

/-- `JMinvJt` without the damping: `J_i · M⁻¹ J_jᵀ` -/
theorem contact_entry (h : s.Packed) (hf : s.Full) (hc : crbaCheck s.par s.n = true) {M : ℕ → ℕ → K}
    (h0 : s.BranchZero M) {d : Chol K} (hU : s.TreeTri d.U) (hD : ∀ r < s.nv, (decompose s M d).D r ≠ 0)
    {rt : K → K} (hrt : ∀ k < s.nv, rt ((decompose s M d).D k) * rt ((decompose s M d).D k) = (decompose s M d).D k)
    (a b : ℕ → K) :
    ∑ k ∈ range s.nv, cholUiv s (decompose s M d).U a k / rt ((decompose s M d).D k) *
        (cholUiv s (decompose s M d).U b k / rt ((decompose s M d).D k))
      = ∑ r ∈ range s.nv, a r * cholSolve s (decompose s M d) b r := by
  have hT := (C22_decompose h hf hc M h0 d hU).1
  have hDi := ((C22_decompose h hf hc M h0 d hU).2 hD).1
  have e1 : ∀ r ∈ range s.nv, a r * cholSolve s (decompose s M d) b r
      = ∑ k ∈ range s.nv, (decompose s M d).U r k * cholUiv s (decompose s M d).U a k *
          cholSolve s (decompose s M d) b r := fun r hr => by
    rw [← sum_mul, (C22_products h hf hc _ hT a (mem_range.1 hr)).2.2.1]
  rw [sum_congr rfl e1, sum_comm]
  refine sum_congr rfl fun k hk => ?_
  rw [mem_range] at hk
  have e2 : ∑ r ∈ range s.nv, (decompose s M d).U r k * cholSolve s (decompose s M d) b r
      = cholUiv s (decompose s M d).U b k * (decompose s M d).Dinv k := by
    unfold cholSolve
    rw [(C22_products h hf hc _ hT _ hk).2.2.2, if_pos hk]
  have e3 : ∑ r ∈ range s.nv, (decompose s M d).U r k * cholUiv s (decompose s M d).U a k *
        cholSolve s (decompose s M d) b r
      = cholUiv s (decompose s M d).U a k *
        ∑ r ∈ range s.nv, (decompose s M d).U r k * cholSolve s (decompose s M d) b r := by
    rw [mul_sum]; exact sum_congr rfl fun r _ => by ring
  rw [e3, e2]
  have hr := hrt k hk
  have hz : rt ((decompose s M d).D k) ≠ 0 := fun h0 => by rw [h0, mul_zero] at hr; exact hD k hk hr.symm
  have hd := hDi k hk
  have : (decompose s M d).Dinv k = 1 / (rt ((decompose s M d).D k) * rt ((decompose s M d).D k)) := by
    rw [hr, eq_div_iff (hD k hk)]; exact hd
  rw [this]
  field_simp

end

/-- `mi b` is the solution of `M x = b` -/
structure MInv [CommRing K] (n : ℕ) (M : ℕ → ℕ → K) (mi : (ℕ → K) → ℕ → K) : Prop where
  sym : ∀ r c, M r c = M c r
  sol : ∀ b r, r < n → ∑ c ∈ range n, M r c * mi b c = b r
  uniq : ∀ (b x : ℕ → K), (∀ k < n, b k = ∑ c ∈ range n, M k c * x c) → ∀ r < n, mi b r = x r

section
variable [CommRing K] {n nc : ℕ} {M : ℕ → ℕ → K} {mi : (ℕ → K) → ℕ → K} {J : ℕ → ℕ → K}

/-- inner product -/
def dotN (n : ℕ) (a b : ℕ → K) : K := ∑ r ∈ range n, a r * b r

/-- `Jᵀ w` -/
def jt (nc : ℕ) (J : ℕ → ℕ → K) (w : ℕ → K) (r : ℕ) : K := ∑ i ∈ range nc, J i r * w i

theorem dotN_jt (w b : ℕ → K) : dotN n (jt nc J w) b = ∑ i ∈ range nc, w i * dotN n (J i) b := by
  unfold dotN jt
  simp only [sum_mul, mul_sum]
  rw [sum_comm]
  exact sum_congr rfl fun i _ => sum_congr rfl fun r _ => by ring

theorem MInv.mi_jt (h : MInv n M mi) (w : ℕ → K) {r : ℕ} (hr : r < n) :
    mi (jt nc J w) r = ∑ j ∈ range nc, mi (J j) r * w j := by
  refine h.uniq _ (fun r => ∑ j ∈ range nc, mi (J j) r * w j) (fun k hk => ?_) r hr
  have : ∀ c ∈ range n, M k c * ∑ j ∈ range nc, mi (J j) c * w j
      = ∑ j ∈ range nc, M k c * mi (J j) c * w j := fun c _ => by
    rw [mul_sum]; exact sum_congr rfl fun j _ => by ring
  rw [sum_congr rfl this, sum_comm]
  exact sum_congr rfl fun j _ => by rw [← sum_mul, h.sol _ k hk]

theorem MInv.dot_jt (h : MInv n M mi) (a w : ℕ → K) :
    dotN n a (mi (jt nc J w)) = ∑ j ∈ range nc, dotN n a (mi (J j)) * w j := by
  have : dotN n a (mi (Pin.jt nc J w)) = ∑ r ∈ range n, a r * ∑ j ∈ range nc, mi (J j) r * w j :=
    sum_congr rfl fun r hr => by rw [h.mi_jt w (mem_range.1 hr)]
  rw [this]
  unfold dotN
  simp only [mul_sum, sum_mul]
  rw [sum_comm]
  exact sum_congr rfl fun j _ => sum_congr rfl fun r _ => by ring

/-- `a · M b` -/
theorem MInv.dot (h : MInv n M mi) (a b : ℕ → K) :
    dotN n a b = ∑ r ∈ range n, ∑ c ∈ range n, a r * M r c * mi b c := by
  unfold dotN
  refine sum_congr rfl fun r hr => ?_
  rw [← h.sol b r (mem_range.1 hr), mul_sum]
  exact sum_congr rfl fun c _ => by ring

theorem MInv.symm (h : MInv n M mi) (a b : ℕ → K) : dotN n a (mi b) = dotN n b (mi a) := by
  have e1 : dotN n (mi b) a = _ := h.dot (mi b) a
  have e2 : dotN n (mi a) b = _ := h.dot (mi a) b
  have c : ∀ x y : ℕ → K, dotN n x y = dotN n y x := fun x y => sum_congr rfl fun r _ => mul_comm _ _
  rw [c a, e1, c b, e2, sum_comm]
  exact sum_congr rfl fun r _ => sum_congr rfl fun k _ => by rw [h.sym k r]; ring

theorem MInv.quad (h : MInv n M mi) (b : ℕ → K) :
    dotN n b (mi b) = ∑ r ∈ range n, ∑ c ∈ range n, mi b r * M r c * mi b c := by
  rw [← h.dot (mi b) b]
  exact sum_congr rfl fun r _ => mul_comm _ _

theorem MInv.add (h : MInv n M mi) (a b : ℕ → K) {r : ℕ} (hr : r < n) :
    mi (fun k => a k + b k) r = mi a r + mi b r := by
  refine h.uniq _ (fun r => mi a r + mi b r) (fun k hk => ?_) r hr
  simp only [mul_add, sum_add_distrib]
  rw [h.sol a k hk, h.sol b k hk]

end

/-- the matrix `J M⁻¹ Jᵀ + μ` -/
structure IsContact [CommRing K] (n nc : ℕ) (mi : (ℕ → K) → ℕ → K) (J : ℕ → ℕ → K) (μ : K) (A : ℕ → ℕ → K) : Prop where
  entry : ∀ i < nc, ∀ j < nc, A i j = dotN n (J i) (mi (J j)) + if i = j then μ else 0

section
variable [Field K] [LinearOrder K] [IsStrictOrderedRing K] {n nc : ℕ} {M : ℕ → ℕ → K} {mi : (ℕ → K) → ℕ → K}
  {J A : ℕ → ℕ → K} {μ : K}

theorem sum_diag {N : ℕ} (w : ℕ → K) (μ : K) {i : ℕ} (hi : i < N) :
    ∑ j ∈ range N, (if i = j then μ else 0) * w j = μ * w i := by
  simp only [ite_mul, zero_mul]
  rw [sum_ite_eq, if_pos (mem_range.2 hi)]

theorem IsContact.mulVec (hA : IsContact n nc mi J μ A) (h : MInv n M mi) (w : ℕ → K) {i : ℕ} (hi : i < nc) :
    ∑ j ∈ range nc, A i j * w j = dotN n (J i) (mi (jt nc J w)) + μ * w i := by
  rw [h.dot_jt, ← sum_diag w μ hi, ← sum_add_distrib]
  exact sum_congr rfl fun j hj => by rw [hA.entry i hi j (mem_range.1 hj), add_mul]

theorem IsContact.quad (hA : IsContact n nc mi J μ A) (h : MInv n M mi) (w : ℕ → K) :
    ∑ i ∈ range nc, ∑ j ∈ range nc, w i * A i j * w j
      = dotN n (jt nc J w) (mi (jt nc J w)) + μ * ∑ i ∈ range nc, w i * w i := by
  rw [dotN_jt, mul_sum, ← sum_add_distrib]
  refine sum_congr rfl fun i hi => ?_
  simp only [mul_assoc]
  rw [← mul_sum, hA.mulVec h w (mem_range.1 hi)]
  ring

/-- the mass matrix is positive definite -/
def PosDef (n : ℕ) (M : ℕ → ℕ → K) : Prop :=
  ∀ w : ℕ → K, (∃ r, r < n ∧ w r ≠ 0) → 0 < ∑ r ∈ range n, ∑ c ∈ range n, w r * M r c * w c

theorem MInv.dot_pos (h : MInv n M mi) (hp : PosDef n M) (b : ℕ → K) (hb : ∃ r, r < n ∧ b r ≠ 0) :
    0 < dotN n b (mi b) := by
  rw [h.quad]
  refine hp _ ?_
  by_contra hc
  push Not at hc
  obtain ⟨r, hr, hn⟩ := hb
  refine hn ?_
  rw [← h.sol b r hr]
  exact sum_eq_zero fun c hcm => by rw [hc c (mem_range.1 hcm), mul_zero]

theorem MInv.dot_nonneg (h : MInv n M mi) (hp : PosDef n M) (b : ℕ → K) : 0 ≤ dotN n b (mi b) := by
  by_cases hb : ∃ r, r < n ∧ b r ≠ 0
  · exact (h.dot_pos hp b hb).le
  · push Not at hb
    unfold dotN
    rw [sum_eq_zero fun r hr => by rw [hb r (mem_range.1 hr), zero_mul]]

theorem IsContact.pos (hA : IsContact n nc mi J μ A) (h : MInv n M mi) (hp : PosDef n M)
    (hμ : 0 < μ ∨ (μ = 0 ∧ FullRank n nc J)) : PosDef nc A := by
  intro w hw
  rw [hA.quad h]
  rcases hμ with hμ | ⟨rfl, hJ⟩
  · have h1 := h.dot_nonneg hp (jt nc J w)
    have h2 : 0 < ∑ i ∈ range nc, w i * w i := by
      obtain ⟨i, hi, hn⟩ := hw
      exact sum_pos' (fun j _ => mul_self_nonneg _) ⟨i, mem_range.2 hi, mul_self_pos.2 hn⟩
    have := mul_pos hμ h2
    linarith
  · rw [zero_mul, add_zero]
    refine h.dot_pos hp _ ?_
    by_contra hc
    push Not at hc
    obtain ⟨i, hi, hn⟩ := hw
    exact hn (hJ w hc i hi)

theorem IsContact.solve (hA : IsContact n nc mi J μ A) (h : MInv n M mi) (hp : PosDef n M)
    (hμ : 0 < μ ∨ (μ = 0 ∧ FullRank n nc J)) (b : ℕ → K) {i : ℕ} (hi : i < nc) :
    dotN n (J i) (mi (jt nc J (lltSolve nc A b))) + μ * lltSolve nc A b i = b i := by
  rw [← hA.mulVec h _ hi]
  exact lltSolve_spec (pd_det (hA.pos h hp hμ)) b hi

end

section
variable [Field K] [LinearOrder K] [IsStrictOrderedRing K] {s : Sys K}

/-- the factorisation of a positive definite matrix gives its inverse and the contact matrix -/
theorem contact_setup (h : s.Packed) (hf : s.Full) (hc : crbaCheck s.par s.n = true) {M : ℕ → ℕ → K}
    (h0 : s.BranchZero M) {d : Chol K} (hU : s.TreeTri d.U) (hp : PosDef s.nv (symUpper M)) {rt : K → K}
    (hrt : ∀ k < s.nv, rt ((decompose s M d).D k) * rt ((decompose s M d).D k) = (decompose s M d).D k)
    (nc : ℕ) (J : ℕ → ℕ → K) (μ : K) (c : CData K) (hcc : c.chol = decompose s M d) :
    MInv s.nv (symUpper M) (cholSolve s (decompose s M d)) ∧
    IsContact s.nv nc (cholSolve s (decompose s M d)) J μ (contactMatrix rt s nc J μ c).JMinvJt := by
  have hD : ∀ r < s.nv, (decompose s M d).D r ≠ 0 := fun r hr => (C22_positive h hf hc M h0 d hU hp r hr).ne'
  refine ⟨⟨fun r c => ?_, fun b r hr => (C22_solve h hf hc M h0 d hU hD b (fun _ => 0) hr).1,
    fun b x hx r hr => (C22_solve h hf hc M h0 d hU hD b x hr).2 hx⟩, ⟨fun i _ j _ => ?_⟩⟩
  · unfold symUpper
    rcases Nat.lt_trichotomy r c with a | rfl | a
    · rw [if_pos a.le, if_neg (by omega)]
    · rfl
    · rw [if_neg (by omega), if_pos a.le]
  · unfold contactMatrix
    dsimp only
    rw [hcc, contact_entry h hf hc h0 hU hD hrt]
    rfl

end

section
variable [Field K] [LinearOrder K] [IsStrictOrderedRing K] [HasEps K] {s : Sys K}

/-- the mass matrix as a form -/
def massM (s : Sys K) (q : ℕ → K) (r c : ℕ) : K := s.massForm q (Sys.unit r) (Sys.unit c)

theorem MInv.congr {n : ℕ} {M M' : ℕ → ℕ → K} {mi : (ℕ → K) → ℕ → K} (h : MInv n M mi)
    (hs : ∀ r c, M' r c = M' c r) (e : ∀ r < n, ∀ c < n, M r c = M' r c) : MInv n M' mi := by
  refine ⟨hs, fun b r hr => ?_, fun b x hx r hr => ?_⟩
  · rw [← h.sol b r hr]
    exact sum_congr rfl fun c hc => by rw [e r hr c (mem_range.1 hc)]
  · refine h.uniq b x (fun k hk => ?_) r hr
    rw [hx k hk]
    exact sum_congr rfl fun c hc => by rw [e k hk c (mem_range.1 hc)]

theorem massM_mulVec (hw : s.WF) (q : ℕ → K) (r : ℕ) (a : ℕ → K) :
    ∑ c ∈ range s.nv, massM s q r c * a c = s.massForm q (Sys.unit r) a := (Sys.massForm_coord hw q _ a).symm

theorem MInv.form (hw : s.WF) {q : ℕ → K} {mi : (ℕ → K) → ℕ → K} (h : MInv s.nv (massM s q) mi) (w b : ℕ → K) :
    s.massForm q w (mi b) = s.dotv w b := by
  rw [Sys.massForm_symm, Sys.massForm_coord hw]
  unfold Sys.dotv
  refine sum_congr rfl fun r hr => ?_
  rw [Sys.massForm_symm, ← massM_mulVec hw, h.sol b r (mem_range.1 hr), mul_comm]

theorem posDef_massM (h : s.Packed) {q : ℕ → K} (hH : s.Heavy q) : PosDef s.nv (massM s q) := by
  intro w hw
  have e : ∑ r ∈ range s.nv, ∑ c ∈ range s.nv, w r * massM s q r c * w c = s.massForm q w w := by
    rw [Sys.massForm_symm, Sys.massForm_coord h.wf]
    refine sum_congr rfl fun r _ => ?_
    rw [Sys.massForm_symm, ← massM_mulVec h.wf, sum_mul]
    exact sum_congr rfl fun c _ => by ring
  rw [e]
  exact Sys.massForm_pos h hH.body hH.cols hH.arm w hw

theorem PosDef.congr {n : ℕ} {M M' : ℕ → ℕ → K} (h : PosDef n M) (e : ∀ r < n, ∀ c < n, M r c = M' r c) :
    PosDef n M' := by
  intro w hw
  have := h w hw
  rwa [sum_congr rfl fun r hr => sum_congr rfl fun c hc => by rw [e r (mem_range.1 hr) c (mem_range.1 hc)]] at this

/-- the same, for a matrix that holds the mass matrix in its upper triangle -/
theorem contact_mass (h : s.Packed) (hf : s.Full) (hc : crbaCheck s.par s.n = true) {q : ℕ → K} (hH : s.Heavy q)
    {M : ℕ → ℕ → K} (e : ∀ r < s.nv, ∀ c < s.nv, symUpper M r c = massM s q r c)
    (h0 : s.BranchZero M) {d : Chol K} (hU : s.TreeTri d.U) {rt : K → K}
    (hrt : SqrtOn rt s.nv (decompose s M d).D) (nc : ℕ) (J : ℕ → ℕ → K) (μ : K) (c : CData K)
    (hcc : c.chol = decompose s M d) :
    MInv s.nv (massM s q) (cholSolve s (decompose s M d)) ∧
    IsContact s.nv nc (cholSolve s (decompose s M d)) J μ (contactMatrix rt s nc J μ c).JMinvJt := by
  have hp : PosDef s.nv (symUpper M) := (posDef_massM h hH).congr fun r hr c hc => (e r hr c hc).symm
  obtain ⟨a, b⟩ := contact_setup h hf hc h0 hU hp
    (fun k hk => hrt k hk (C22_positive h hf hc M h0 d hU hp k hk)) nc J μ c hcc
  exact ⟨a.congr (fun r c => Sys.massForm_symm ..) e, b⟩

end

/-! ## the inverse of the KKT matrix -/

section
variable [Field K] [LinearOrder K] [IsStrictOrderedRing K] {n nc : ℕ} {M : ℕ → ℕ → K} {mi : (ℕ → K) → ℕ → K}
  {J A : ℕ → ℕ → K} {μ : K}

theorem dotN_unit {k : ℕ} (hk : k < n) (b : ℕ → K) : dotN n (fun x => if x = k then 1 else 0) b = b k := by
  unfold dotN
  simp only [ite_mul, one_mul, zero_mul]
  rw [sum_ite_eq', if_pos (mem_range.2 hk)]

theorem kkt_inverse (h : MInv n M mi) (hp : PosDef n M) (hA : IsContact n nc mi J μ A)
    (hμ : 0 < μ ∨ (μ = 0 ∧ FullRank n nc J)) {X : ℕ → ℕ → K} {BR TL BL TR : ℕ → ℕ → K}
    (hBR : BR = fun i j => lltSolve nc A (fun k => -(if k = j then 1 else 0)) i)
    (hBL : BL = fun i k => ∑ r ∈ range n, J i r * mi (fun x => if x = k then 1 else 0) r)
    (hTR : TR = fun r j => ∑ i ∈ range nc, BL i r * -BR i j)
    (hTL : TL = fun r k => mi (fun x => if x = k then 1 else 0) r - ∑ i ∈ range nc, TR r i * BL i k)
    (hX : X = fun r k => if r < n then (if k < n then TL r k else TR r (k - n))
      else (if k < n then TR k (r - n) else BR (r - n) (k - n))) :
    InverseOf (n + nc) (kktMatrix n M J μ) X := by
  have sA : ∀ i < nc, ∀ j < nc, A i j = A j i := fun i hi j hj => by
    rw [hA.entry i hi j hj, hA.entry j hj i hi, h.symm]
    congr 1
    by_cases e : i = j
    · rw [if_pos e, if_pos e.symm]
    · rw [if_neg e, if_neg fun h => e h.symm]
  have solBR : ∀ j, ∀ i < nc, ∑ l ∈ range nc, A i l * BR l j = -(if i = j then 1 else 0) := fun j i hi => by
    rw [hBR]; exact lltSolve_spec (pd_det (hA.pos h hp hμ)) _ hi
  have BRs : ∀ i < nc, ∀ j < nc, BR i j = BR j i := fun i hi j hj => by
    have e1 : BR i j = -∑ a ∈ range nc, -(if a = i then 1 else 0) * BR a j := by
      simp only [neg_mul, ite_mul, one_mul, zero_mul, sum_neg_distrib, neg_neg]
      rw [sum_ite_eq', if_pos (mem_range.2 hi)]
    have e2 : BR j i = -∑ a ∈ range nc, BR a i * -(if a = j then 1 else 0) := by
      simp only [mul_neg, mul_ite, mul_one, mul_zero, sum_neg_distrib, neg_neg]
      rw [sum_ite_eq', if_pos (mem_range.2 hj)]
    have e3 : ∀ a ∈ range nc, -(if a = i then 1 else 0) * BR a j = (∑ l ∈ range nc, A a l * BR l i) * BR a j :=
      fun a ha => by rw [← solBR i a (mem_range.1 ha)]
    have e4 : ∀ a ∈ range nc, BR a i * -(if a = j then 1 else 0) = BR a i * ∑ l ∈ range nc, A a l * BR l j :=
      fun a ha => by rw [← solBR j a (mem_range.1 ha)]
    rw [e1, e2, sum_congr rfl e3, sum_congr rfl e4]
    congr 1
    simp only [sum_mul, mul_sum]
    rw [sum_comm]
    refine sum_congr rfl fun a ha => sum_congr rfl fun b hb => ?_
    rw [sA b (mem_range.1 hb) a (mem_range.1 ha)]
    ring
  have hBL' : ∀ i, ∀ k < n, BL i k = mi (J i) k := fun i k hk => by
    rw [hBL]
    show dotN n (J i) (mi _) = _
    rw [h.symm, dotN_unit hk]
  have hTR' : ∀ r < n, ∀ j, TR r j = -mi (jt nc J fun i => BR i j) r := fun r hr j => by
    rw [hTR, h.mi_jt _ hr, ← sum_neg_distrib]
    exact sum_congr rfl fun i _ => by rw [hBL' i r hr]; ring
  have mTR : ∀ r < n, ∀ j, ∑ c ∈ range n, M r c * TR c j = -∑ i ∈ range nc, J i r * BR i j := fun r hr j => by
    rw [sum_congr rfl fun c hc => by rw [hTR' c (mem_range.1 hc) j, mul_neg], sum_neg_distrib, h.sol _ r hr]
    rfl
  have jTR : ∀ i < nc, ∀ j, ∑ c ∈ range n, J i c * TR c j = (if i = j then 1 else 0) + μ * BR i j := fun i hi j => by
    have e : ∑ c ∈ range n, J i c * TR c j = -dotN n (J i) (mi (jt nc J fun i => BR i j)) := by
      unfold dotN
      rw [← sum_neg_distrib]
      exact sum_congr rfl fun c hc => by rw [hTR' c (mem_range.1 hc) j]; ring
    have e2 := hA.mulVec h (fun i => BR i j) hi
    rw [solBR j i hi] at e2
    rw [e]
    linear_combination e2
  have key : ∀ r < n + nc, ∀ c < n + nc,
      ∑ k ∈ range (n + nc), kktMatrix n M J μ r k * X k c = if r = c then 1 else 0 := by
    intro r hr c hc
    rw [sum_range_add]
    by_cases r1 : r < n <;> by_cases c1 : c < n
    · have e1 : ∀ k ∈ range n, kktMatrix n M J μ r k * X k c = M r k * TL k c := fun k hk => by
        rw [mem_range] at hk
        unfold kktMatrix
        rw [hX]
        dsimp only
        rw [if_pos r1, if_pos hk, if_pos hk, if_pos c1]
      have e2 : ∀ k ∈ range nc, kktMatrix n M J μ r (n + k) * X (n + k) c = J k r * TR c k := fun k hk => by
        have hk' : ¬ n + k < n := by omega
        unfold kktMatrix
        rw [hX]
        dsimp only
        rw [if_pos r1, if_neg hk', if_neg hk', if_pos c1, Nat.add_sub_cancel_left]
      rw [sum_congr rfl e1, sum_congr rfl e2, hTL]
      simp only [mul_sub, sum_sub_distrib]
      rw [h.sol _ r r1]
      have e3 : ∑ k ∈ range n, M r k * ∑ i ∈ range nc, TR k i * BL i c
          = ∑ i ∈ range nc, -(∑ j ∈ range nc, J j r * BR j i) * mi (J i) c := by
        simp only [mul_sum]
        rw [sum_comm]
        refine sum_congr rfl fun i hi => ?_
        rw [← mTR r r1 i, sum_mul]
        exact sum_congr rfl fun k _ => by rw [hBL' i c c1]; ring
      have e4 : ∑ k ∈ range nc, J k r * TR c k = -∑ k ∈ range nc, ∑ j ∈ range nc, J k r * (mi (J j) c * BR j k) := by
        rw [← sum_neg_distrib]
        refine sum_congr rfl fun k _ => ?_
        rw [hTR' c c1 k, h.mi_jt _ c1, mul_neg, mul_sum]
      rw [e3, e4]
      have e5 : ∑ i ∈ range nc, -(∑ j ∈ range nc, J j r * BR j i) * mi (J i) c
          = -∑ k ∈ range nc, ∑ j ∈ range nc, J k r * (mi (J j) c * BR j k) := by
        rw [sum_comm, ← sum_neg_distrib]
        refine sum_congr rfl fun i hi => ?_
        rw [neg_mul, sum_mul]
        congr 1
        refine sum_congr rfl fun j hj => ?_
        rw [BRs j (mem_range.1 hj) i (mem_range.1 hi)]
        ring
      rw [e5]
      ring
    · have e1 : ∀ k ∈ range n, kktMatrix n M J μ r k * X k c = M r k * TR k (c - n) := fun k hk => by
        rw [mem_range] at hk
        unfold kktMatrix
        rw [hX]
        dsimp only
        rw [if_pos r1, if_pos hk, if_pos hk, if_neg c1]
      have e2 : ∀ k ∈ range nc, kktMatrix n M J μ r (n + k) * X (n + k) c = J k r * BR k (c - n) := fun k hk => by
        have hk' : ¬ n + k < n := by omega
        unfold kktMatrix
        rw [hX]
        dsimp only
        rw [if_pos r1, if_neg hk', if_neg hk', if_neg c1, Nat.add_sub_cancel_left]
      rw [sum_congr rfl e1, sum_congr rfl e2, mTR r r1, if_neg (by omega), neg_add_cancel]
    · have hr' : r - n < nc := by omega
      have e1 : ∀ k ∈ range n, kktMatrix n M J μ r k * X k c = J (r - n) k * TL k c := fun k hk => by
        rw [mem_range] at hk
        unfold kktMatrix
        rw [hX]
        dsimp only
        rw [if_neg r1, if_pos hk, if_pos hk, if_pos c1]
      have e2 : ∀ k ∈ range nc, kktMatrix n M J μ r (n + k) * X (n + k) c
          = (if r - n = k then -μ else 0) * TR c k := fun k hk => by
        have hk' : ¬ n + k < n := by omega
        unfold kktMatrix
        rw [hX]
        dsimp only
        rw [if_neg r1, if_neg hk', if_neg hk', if_pos c1, Nat.add_sub_cancel_left]
        congr 1
        by_cases e : r - n = k
        · rw [if_pos e, if_pos (by omega)]
        · rw [if_neg e, if_neg (by omega)]
      rw [sum_congr rfl e1, sum_congr rfl e2, sum_diag (fun k => TR c k) (-μ) hr', hTL, if_neg (by omega)]
      simp only [mul_sub, sum_sub_distrib]
      have e3 : ∑ k ∈ range n, J (r - n) k * ∑ i ∈ range nc, TR k i * BL i c
          = ∑ i ∈ range nc, ((if r - n = i then 1 else 0) + μ * BR (r - n) i) * mi (J i) c := by
        simp only [mul_sum]
        rw [sum_comm]
        refine sum_congr rfl fun i hi => ?_
        rw [← jTR (r - n) hr' i, sum_mul]
        exact sum_congr rfl fun k _ => by rw [hBL' i c c1]; ring
      have e4 : ∑ k ∈ range n, J (r - n) k * mi (fun x => if x = c then 1 else 0) k = mi (J (r - n)) c := by
        rw [← hBL' (r - n) c c1, hBL]
      rw [e3, e4, hTR' c c1 (r - n), h.mi_jt _ c1]
      simp only [add_mul, sum_add_distrib]
      rw [sum_diag (fun i => mi (J i) c) 1 hr', one_mul]
      have e5 : ∑ i ∈ range nc, μ * BR (r - n) i * mi (J i) c = μ * ∑ i ∈ range nc, mi (J i) c * BR i (r - n) := by
        rw [mul_sum]
        refine sum_congr rfl fun i hi => ?_
        rw [BRs (r - n) hr' i (mem_range.1 hi)]
        ring
      rw [e5]
      ring
    · have hr' : r - n < nc := by omega
      have e1 : ∀ k ∈ range n, kktMatrix n M J μ r k * X k c = J (r - n) k * TR k (c - n) := fun k hk => by
        rw [mem_range] at hk
        unfold kktMatrix
        rw [hX]
        dsimp only
        rw [if_neg r1, if_pos hk, if_pos hk, if_neg c1]
      have e2 : ∀ k ∈ range nc, kktMatrix n M J μ r (n + k) * X (n + k) c
          = (if r - n = k then -μ else 0) * BR k (c - n) := fun k hk => by
        have hk' : ¬ n + k < n := by omega
        unfold kktMatrix
        rw [hX]
        dsimp only
        rw [if_neg r1, if_neg hk', if_neg hk', if_neg c1, Nat.add_sub_cancel_left]
        congr 1
        by_cases e : r - n = k
        · rw [if_pos e, if_pos (by omega)]
        · rw [if_neg e, if_neg (by omega)]
      rw [sum_congr rfl e1, sum_congr rfl e2, sum_diag (fun k => BR k (c - n)) (-μ) hr', jTR (r - n) hr']
      by_cases e : r = c
      · rw [if_pos e, if_pos (by omega)]; ring
      · rw [if_neg e, if_neg (by omega)]; ring
  exact fun r hr c hc => ⟨key r hr c hc, inv_comm key r hr c hc⟩

end
end Pin
