import Verif.Spec.Matrix

/-! # Specification: systems under constraints -/

namespace Pin
variable {K : Type*}

/-- the `nc` rows of `J` are independent -/
def FullRank [CommRing K] (nv nc : ℕ) (J : ℕ → ℕ → K) : Prop :=
  ∀ w : ℕ → K, (∀ r < nv, ∑ i ∈ Finset.range nc, J i r * w i = 0) → ∀ i < nc, w i = 0

/-- the matrix `[[M, Jᵀ], [J, -μ]]` -/
def kktMatrix [CommRing K] (nv : ℕ) (M J : ℕ → ℕ → K) (μ : K) (r c : ℕ) : K :=
  if r < nv then (if c < nv then M r c else J (c - nv) r)
  else (if c < nv then J (r - nv) c else if r = c then -μ else 0)

/-- what makes the mass matrix positive definite: massive bodies, joints with independent columns, non-negative
armature -/
structure Sys.Heavy [Field K] [LinearOrder K] (s : Sys K) (q : ℕ → K) : Prop where
  body : ∀ i, 1 ≤ i → i < s.n → 0 < (s.Y i).mass ∧ ∀ w, w ≠ 0 → 0 < (s.Y i).rotI.vtiv w
  cols : ∀ i, 1 ≤ i → i < s.n → ∀ x, comb (s.S q i) (s.jnv i) x = 0 → ∀ k, k < s.jnv i → x k = 0
  arm : ∀ r, r < s.nv → 0 ≤ s.arm r

/-- `rt` is a square root on the positive entries of `D` -/
def SqrtOn [Field K] [LinearOrder K] (rt : K → K) (n : ℕ) (D : ℕ → K) : Prop :=
  ∀ k < n, 0 < D k → rt (D k) * rt (D k) = D k

end Pin
