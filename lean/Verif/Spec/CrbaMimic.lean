import Verif.Algo.CrbaMimic

/-!
# Specification: models with mimic joints on which `crba` is correct

`MimTab.Ok` says that the tables are those of the tree and of the joints. `MimTab.Simple` lists the restrictions on the place of the
mimic joints; each of them is needed (`C78_*_counterexample`).
-/

namespace Pin
open Finset
variable {K : Type*} [Field K] [LinearOrder K] [HasEps K]

/-- the tables describe the system -/
structure MimTab.Ok (t : MimTab) (s : Sys K) : Prop where
  /-- the columns `idx_vExtended` of the joints, mimic joints included, follow each other -/
  ext : (s.ext t).Packed
  /-- the model passes the check of `crba`: depth-first order -/
  order : crbaCheck s.par s.n = true
  iv0 : s.iv 0 = 0
  sup : ∀ i, i < s.n → t.sup i = s.sup i
  /-- a mimic joint has no velocity of its own -/
  nvs : ∀ i, 1 ≤ i → i < s.n → t.nvs i = if (t.mim i).isSome then 0 else s.jnv i
  iv : ∀ i, 1 ≤ i → i < s.n → t.mim i = none → s.iv i = ∑ j ∈ Ico 1 i, t.nvs j
  nv : s.nv = ∑ j ∈ Ico 1 s.n, t.nvs j
  /-- a mimic joint has one degree of freedom and the velocity index of an earlier joint with one degree of freedom, which is not
  a mimic joint -/
  mim : ∀ i p, 1 ≤ i → i < s.n → t.mim i = some p →
    (1 ≤ p ∧ p < i) ∧ t.mim p = none ∧ s.iv i = s.iv p ∧ s.jnv i = 1 ∧ s.jnv p = 1
  sorted : (t.mims.map (·.1)).Pairwise (· < ·)
  mem : ∀ i, i ∈ t.mims.map (·.1) ↔ (1 ≤ i ∧ i < s.n) ∧ (t.mim i).isSome

/-- the restrictions on the mimic joints -/
structure MimTab.Simple (t : MimTab) (s : Sys K) : Prop where
  /-- `nvSubtree` of a joint which is not a mimic joint is the number of velocity coordinates of its subtree -/
  sub : ∀ i, 1 ≤ i → i < s.n → t.mim i = none → t.nvSub i = ((∑ j ∈ subtree s.par s.n i, t.nvs j : ℕ) : ℤ)
  /-- the followed joint is not the one with the first velocity coordinate -/
  first : ∀ i p, 1 ≤ i → i < s.n → t.mim i = some p → 0 < s.iv p
  /-- no mimic joint is in the subtree of another one -/
  alone : ∀ i j, 1 ≤ i → i < s.n → j < s.n → (t.mim i).isSome → (t.mim j).isSome → anc s.par i j → i = j
  /-- the subtree of a mimic joint is empty or that of one child -/
  branch : ∀ x ∈ t.mims, (x.2 = 0 ∧ ∀ j < s.n, anc s.par x.1 j → j = x.1) ∨
    (x.1 < x.2 ∧ x.2 < s.n ∧ anc s.par x.1 x.2 ∧ ∀ j < s.n, anc s.par x.1 j → j = x.1 ∨ anc s.par x.2 j)
  /-- the supports of a mimic joint from the followed joint on have one degree of freedom -/
  single : ∀ i p k, 1 ≤ i → i < s.n → t.mim i = some p → 1 ≤ k → anc s.par k i → t.mim k = none → s.iv p ≤ s.iv k →
    s.jnv k = 1

/-- entries between joints of different branches are zero, mimic joints left aside; in particular the zero matrix with which
`DataTpl` is constructed (`data.hxx:43`) -/
def MimTab.BranchZero (t : MimTab) (s : Sys K) (M : ℕ → ℕ → K) : Prop :=
  ∀ i j, 1 ≤ i → i < s.n → 1 ≤ j → j < s.n → t.mim i = none → t.mim j = none → ¬ anc s.par i j → ¬ anc s.par j i →
    ∀ k < s.jnv i, ∀ l < s.jnv j, M (s.iv i + k) (s.iv j + l) = 0

end Pin
