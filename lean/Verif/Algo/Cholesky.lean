import Verif.Algo.Rows
import Verif.Algo.Subtree

/-! # `algorithm/cholesky.hxx`: sparse Cholesky factorisation of the mass matrix

Models without mimic joint (the functions assert this). The overloads for matrices apply the vector functions
to each column (`cholesky.hxx:68-77` etc.) and are not modelled apart. -/

namespace Pin
open Finset
variable {K : Type*}

/-- `for (k = 0; k < n; ++k) step(k)` -/
def upTo {D : Type*} (step : ℕ → D → D) (n : ℕ) (d : D) : D :=
  (List.range n).foldl (fun d i => step i d) d

/-- `for (k = n - 1; k >= 0; --k) step(k)` -/
def downTo {D : Type*} (step : ℕ → D → D) (n : ℕ) (d : D) : D :=
  (List.range n).foldr step d

/-- One turn of the loop of `computeParents_fromRow` on `nvSubtree_fromRow`,
`multibody/data.hxx:250, 296, 301, 306`. -/
def nvRowStep (s : Sys K) (i : ℕ) (T : ℕ → ℕ) : ℕ → ℕ :=
  let T := upd T (s.iv i) (s.nvSub i)
  fwd (fun row T => upd T (s.iv i + row) (s.nvSub i - row)) (s.jnv i) T

/-- `data.nvSubtree_fromRow`, `multibody/data.hxx:243-314`; the vector is created with zeros
(`multibody/data.hxx:72`). The differences `nvSubtree[joint] - row` are positive. -/
def nvSubtreeFromRow (s : Sys K) : ℕ → ℕ := fwd (nvRowStep s) s.n (fun _ => 0)

/-- `data.U`, `data.D`, `data.Dinv` (`multibody/data.hpp:287-293`). -/
structure Chol (K : Type*) where
  U : ℕ → ℕ → K
  D : ℕ → K
  Dinv : ℕ → K

/-- The fields as created with the data, `multibody/data.hxx:76-78`. -/
def Chol.init [Zero K] [One K] : Chol K := ⟨fun r c => if r = c then 1 else 0, fun _ => 0, fun _ => 0⟩

section
variable [Field K]

/-- One turn of the loop of `cholesky::decompose`, `algorithm/cholesky.hxx:46-59`; `M` is `data.M`. The buffer
`data.tmp` holds `DUt` only. -/
def cholStep (s : Sys K) (M : ℕ → ℕ → K) (j : ℕ) (d : Chol K) : Chol K :=
  let NVT := nvSubtreeFromRow s j - 1
  let DUt := fun c => d.U j c * d.D c
  let d := { d with D := upd d.D j (M j j - ∑ c ∈ Ico (j + 1) (j + 1 + NVT), d.U j c * DUt c) }
  let d := { d with Dinv := upd d.Dinv j (1 / d.D j) }
  { d with
    U := rowLoop (parentsFromRow s)
      (fun i U => upd U i (upd (U i) j
        ((M i j - ∑ c ∈ Ico (j + 1) (j + 1 + NVT), U i c * DUt c) * d.Dinv j)))
      (s.nv + 1) (parentsFromRow s j) d.U }

/-- `cholesky::decompose`, `algorithm/cholesky.hxx:17-62`. -/
def decompose (s : Sys K) (M : ℕ → ℕ → K) (d : Chol K) : Chol K := downTo (cholStep s M) s.nv d

variable (s : Sys K) (U : ℕ → ℕ → K)

/-- `cholesky::Uv`, `algorithm/cholesky.hxx:99-104`. -/
def cholUv (v : ℕ → K) : ℕ → K :=
  upTo (fun k v => upd v k (v k + ∑ c ∈ Ico (k + 1) (k + 1 + (nvSubtreeFromRow s k - 1)), U k c * v c)) (s.nv - 1) v

/-- `cholesky::Utv`, `algorithm/cholesky.hxx:164-170`. -/
def cholUtv (v : ℕ → K) : ℕ → K :=
  downTo (fun k v => addSeg v (k + 1) (nvSubtreeFromRow s k - 1) (fun l => U k (k + 1 + l) * v k)) (s.nv - 1) v

/-- `cholesky::Uiv`, `algorithm/cholesky.hxx:229-236`. -/
def cholUiv (v : ℕ → K) : ℕ → K :=
  downTo (fun k v => upd v k (v k - ∑ c ∈ Ico (k + 1) (k + 1 + (nvSubtreeFromRow s k - 1)), U k c * v c)) (s.nv - 1) v

/-- `cholesky::Utiv`, `algorithm/cholesky.hxx:295-301`. -/
def cholUtiv (v : ℕ → K) : ℕ → K :=
  upTo (fun k v => addSeg v (k + 1) (nvSubtreeFromRow s k - 1) (fun l => -(U k (k + 1 + l) * v k))) (s.nv - 1) v

/-- `cholesky::Mv`, `algorithm/cholesky.hxx:362-370`; `vout` has any previous content. -/
def cholMv (M : ℕ → ℕ → K) (vin vout : ℕ → K) : ℕ → K :=
  downTo (fun k vout =>
    let vout := upd vout k (∑ c ∈ Ico k (k + nvSubtreeFromRow s k), M k c * vin c)
    addSeg vout (k + 1) (nvSubtreeFromRow s k - 1) (fun l => M k (k + 1 + l) * vin k)) s.nv vout

/-- `cholesky::UDUtv`, `algorithm/cholesky.hxx:441-444`. -/
def cholUDUtv (d : Chol K) (v : ℕ → K) : ℕ → K :=
  let v := cholUtv s d.U v
  let v := fun r => if r < s.nv then v r * d.D r else v r
  cholUv s d.U v

/-- `cholesky::solve`, `algorithm/cholesky.hxx:495-499`. -/
def cholSolve (d : Chol K) (v : ℕ → K) : ℕ → K :=
  let v := cholUiv s d.U v
  let v := fun r => if r < s.nv then v r * d.Dinv r else v r
  cholUtiv s d.U v

/-- `cholesky::internal::Miunit`, `algorithm/cholesky.hxx:541-565`; `v` has any previous content. -/
def cholMiunit (d : Chol K) (col : ℕ) (v : ℕ → K) : ℕ → K :=
  let v := upd v col 1
  let v := putSeg v (col + 1) (s.nv - col - 1) (fun _ => 0)
  let v := downTo (fun k v => upd v k
    (-∑ c ∈ Ico (k + 1) (k + 1 + min col (nvSubtreeFromRow s k - 1)), d.U k c * v c)) (min col (s.nv - 1)) v
  let v := fun r => if r < col + 1 then v r * d.Dinv r else v r
  upTo (fun k v => addSeg v (k + 1) (nvSubtreeFromRow s k - 1) (fun l => -(d.U k (k + 1 + l) * v k))) (col + 1) v

/-- `cholesky::computeMinv`, `algorithm/cholesky.hxx:572-597`; `Minv` has any previous content. -/
def cholMinv (d : Chol K) (Minv : ℕ → ℕ → K) : ℕ → ℕ → K :=
  let Minv := upTo (fun col Minv =>
    let x := cholMiunit s d col (fun r => Minv r col)
    fun r c => if c = col ∧ r < s.nv then x r else Minv r c) s.nv Minv
  fun r c => if c < r ∧ r < s.nv then Minv c r else Minv r c

end
end Pin
