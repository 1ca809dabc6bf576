import Verif.Algo.Constraint

/-!
# `algorithm/contact-cholesky.hpp` and `.hxx`: sparse Cholesky factorisation of the KKT matrix

Models without mimic joint. A `ContactCholeskyDecomposition` is a pair of its tables (`CTab`) and of its factors `U`,
`D`, `Dinv` (`Chol`). The buffers `DUt`, `U1inv`, `U4inv`, `OSIMinv_tmp`, `Minv_tmp` are written before they are
read; they are not part of the state. The overloads for matrices apply the functions below to each column. The size
checks of the arguments are not modelled, but the one on the number of contacts. Calling `compute` with as many
constraints as in `allocate` but of other sizes writes out of the blocks of `U`; it is not modelled.
-/

namespace Pin
open Finset
variable {K : Type*}

/-- The sizes and tables of a decomposition, `algorithm/contact-cholesky.hpp:471-483`: `nv`, the number of rows of
constraints (`constraintDim`), `num_contacts`, `parents_fromRow` and `nv_subtree_fromRow`. -/
structure CTab where
  nv : ℕ
  nc : ℕ
  num : ℕ
  par : ℕ → ℤ
  nvt : ℕ → ℕ

/-- `size()`, `algorithm/contact-cholesky.hpp:353-356` -/
def CTab.N (t : CTab) : ℕ := t.nc + t.nv

/-- One turn on `parents_fromRow`, `algorithm/contact-cholesky.hxx:73-97` -/
def ccParStep (s : Sys K) (nc i : ℕ) (P : ℕ → ℤ) : ℕ → ℤ :=
  let P := upd P (s.iv i + nc)
    (if s.par i > 0 then (s.iv (s.par i) : ℤ) + s.jnv (s.par i) - 1 + nc else -1)
  fwd (fun row P => upd P (s.iv i + nc + row) ((s.iv i : ℤ) + row - 1 + nc)) (s.jnv i) P

/-- One turn on `nv_subtree_fromRow`, `algorithm/contact-cholesky.hxx:73-97`. The loop on `last_child`
(`algorithm/contact-cholesky.hxx:61-70`) is that of `DataTpl::computeLastChild`, and `nv_subtree_fromRow` starts from
what `nvSubtree` is for the joint. -/
def ccNvtStep (s : Sys K) (nc i : ℕ) (T : ℕ → ℕ) : ℕ → ℕ :=
  let T := upd T (s.iv i + nc) (s.nvSub i)
  fwd (fun row T => upd T (s.iv i + nc + row) (T (s.iv i + nc) - row)) (s.jnv i) T

/-- `joint.idx_v() + joint.nv()`; the universe has `idx_v = -1` and `nv = 1` (a default constructed joint) -/
def Sys.endV (s : Sys K) (i : ℕ) : ℕ := if i = 0 then 0 else s.iv i + s.jnv i

/-- One turn of the loop over the constraints on `nv_subtree_fromRow`, `algorithm/contact-cholesky.hxx:101-120`; the
second component is `row_id`. -/
def ccConStep (s : Sys K) (nc : ℕ) (x : (ℕ → ℕ) × ℕ) (m : RCM K) : (ℕ → ℕ) × ℕ :=
  (upTo (fun k T => upd T (x.2 + k) (max (s.endV m.j1) (s.endV m.j2) + (nc - (x.2 + k)))) m.type.dim x.1,
    x.2 + m.type.dim)

/-- The tables set by `allocate`, `algorithm/contact-cholesky.hxx:21-120`; `nv_subtree_fromRow` is not initialised, it
holds `T0`. -/
def CTab.alloc (s : Sys K) (ms : List (RCM K)) (T0 : ℕ → ℕ) : CTab :=
  let nc := totalSize ms
  ⟨s.nv, nc, ms.length,
    fwd (ccParStep s nc) s.n (fun _ => -1),
    (ms.foldl (ccConStep s nc) (fwd (ccNvtStep s nc) s.n T0, 0)).1⟩

/-- The factors after `allocate`, `algorithm/contact-cholesky.hxx:168-173`; `D` and `Dinv` are not initialised, they
hold what `d` does. -/
def allocFactors [Zero K] [One K] (d : Chol K) : Chol K := { d with U := fun r c => if r = c then 1 else 0 }

/-- `for (j = start; j >= first; j = P[j]) step(j)`; `fuel` bounds the number of turns, which is harmless as
`P[j] < j` (`rowLoopFrom_eq`) -/
def rowLoopFrom {D : Type*} (first : ℕ) (P : ℕ → ℤ) (step : ℕ → D → D) : ℕ → ℤ → D → D
  | 0, _, d => d
  | f + 1, j, d => if (first : ℤ) ≤ j then rowLoopFrom first P step f (P j.toNat) (step j.toNat d) else d

section
variable [Field K] (t : CTab)

/-- The matrices before the factorisation, `algorithm/contact-cholesky.hxx:224-240`; the placements of the constraints
are those of `calc`, line 221. -/
def CTab.fill (s : Sys K) (data : Data K) (ms : List (RCM K)) (d : Chol K) : Chol K :=
  let d := { d with D := putSeg d.D t.nc t.nv (fun r => data.M r r) }
  let d := { d with
    U := fun r c => if (t.nc ≤ r ∧ r < t.N) ∧ (t.nc ≤ c ∧ c < t.N) ∧ r < c then data.M (r - t.nc) (c - t.nc) else d.U r c }
  let d := { d with U := putBlock d.U 0 t.nc t.nc t.nv (fun _ _ => 0) }
  { d with
    U := (ms.foldl (fun (x : (ℕ → ℕ → K) × ℕ) m =>
      (putBlock x.1 x.2 t.nc m.type.dim t.nv (m.jacobian s data (m.calc data) (fun r c => x.1 (x.2 + r) (t.nc + c))),
        x.2 + m.type.dim)) (d.U, 0)).1 }

/-- One turn of the loop on the rows of the mass matrix, `algorithm/contact-cholesky.hxx:243-291` -/
def CTab.step (j : ℕ) (d : Chol K) : Chol K :=
  let jj := t.nc + j
  let NVT := t.nvt jj - 1
  let DUt := fun c => d.U jj c * d.D c
  let d := { d with D := upd d.D jj (d.D jj - ∑ c ∈ Ico (jj + 1) (jj + 1 + NVT), d.U jj c * DUt c) }
  let d := { d with Dinv := upd d.Dinv jj (1 / d.D jj) }
  let elim := fun i (U : ℕ → ℕ → K) => upd U i (upd (U i) jj
    ((U i jj - ∑ c ∈ Ico (jj + 1) (jj + 1 + NVT), U i c * DUt c) * d.Dinv jj))
  let d := { d with U := rowLoopFrom t.nc t.par elim (t.N + 1) (t.par jj) d.U }
  { d with U := downTo elim t.nc d.U }

/-- One turn of the loop of `updateDamping`, `algorithm/contact-cholesky.hxx:306-323` -/
def CTab.dampStep (mus : ℕ → K) (j : ℕ) (d : Chol K) : Chol K :=
  let slice := t.N - j - 1
  let DUt := fun c => d.U j c * d.D c
  let d := { d with D := upd d.D j (-mus j - ∑ c ∈ Ico (j + 1) (j + 1 + slice), d.U j c * DUt c) }
  let d := { d with Dinv := upd d.Dinv j (1 / d.D j) }
  { d with
    U := downTo (fun i U => upd U i (upd (U i) j
      (-(∑ c ∈ Ico (j + 1) (j + 1 + slice), U i c * DUt c) * d.Dinv j))) j d.U }

/-- `updateDamping(vec)`, `algorithm/contact-cholesky.hxx:296-324`. `updateDamping(mu)`, lines 326-335, passes a
constant vector. -/
def CTab.updateDamping (mus : ℕ → K) (d : Chol K) : Chol K := downTo (t.dampStep mus) t.nc d

/-- `compute`, `algorithm/contact-cholesky.hxx:176-294`, with no value when it throws; the factors that it leaves. The
overload with a scalar (`algorithm/contact-cholesky.hpp:292-300`) passes a constant vector. -/
def CTab.compute (s : Sys K) (data : Data K) (ms : List (RCM K)) (mus : ℕ → K) (d : Chol K) : Option (Chol K) :=
  if ms.length = t.num then
    some (t.updateDamping mus (downTo t.step t.nv (t.fill s data ms d)))
  else none

variable (U : ℕ → ℕ → K)

/-- `Uv`, `algorithm/contact-cholesky.hxx:411-421` -/
def CTab.Uv (v : ℕ → K) : ℕ → K :=
  let v := upTo (fun k v => upd v k (v k + ∑ c ∈ Ico (k + 1) (k + 1 + (t.N - k - 1)), U k c * v c)) t.nc v
  upTo (fun i v => upd v (t.nc + i)
    (v (t.nc + i) + ∑ c ∈ Ico (t.nc + i + 1) (t.nc + i + 1 + (t.nvt (t.nc + i) - 1)), U (t.nc + i) c * v c)) (t.nv - 1) v

/-- `Utv`, `algorithm/contact-cholesky.hxx:469-478` -/
def CTab.Utv (v : ℕ → K) : ℕ → K :=
  let v := downTo (fun i v => addSeg v (t.nc + i + 1) (t.nvt (t.nc + i) - 1)
    (fun l => U (t.nc + i) (t.nc + i + 1 + l) * v (t.nc + i))) (t.nv - 1) v
  downTo (fun k v => addSeg v (k + 1) (t.N - k - 1) (fun l => U k (k + 1 + l) * v k)) t.nc v

/-- `Uiv`, `algorithm/contact-cholesky.hxx:525-536` -/
def CTab.Uiv (v : ℕ → K) : ℕ → K :=
  let v := downTo (fun i v => upd v (t.nc + i)
    (v (t.nc + i) - ∑ c ∈ Ico (t.nc + i + 1) (t.nc + i + 1 + (t.nvt (t.nc + i) - 1)), U (t.nc + i) c * v c)) (t.nv - 1) v
  downTo (fun k v => upd v k (v k - ∑ c ∈ Ico (k + 1) (k + 1 + (t.N - k - 1)), U k c * v c)) t.nc v

/-- `Utiv`, `algorithm/contact-cholesky.hxx:584-593` -/
def CTab.Utiv (v : ℕ → K) : ℕ → K :=
  let v := upTo (fun k v => addSeg v (k + 1) (t.N - k - 1) (fun l => -(U k (k + 1 + l) * v k))) t.nc v
  upTo (fun i v => addSeg v (t.nc + i + 1) (t.nvt (t.nc + i) - 1)
    (fun l => -(U (t.nc + i) (t.nc + i + 1 + l) * v (t.nc + i)))) (t.nv - 1) v

variable (d : Chol K)

/-- `solveInPlace` and `solve`, `algorithm/contact-cholesky.hxx:338-358` -/
def CTab.solve (v : ℕ → K) : ℕ → K :=
  let v := t.Uiv d.U v
  let v := fun r => if r < t.N then v r * d.Dinv r else v r
  t.Utiv d.U v

/-- `matrix`, `algorithm/contact-cholesky.hxx:606-622` -/
def CTab.matrix (r c : ℕ) : K := ∑ k ∈ range t.N, d.U r k * d.D k * d.U c k

/-- `details::inverseAlgo`, `algorithm/contact-cholesky.hxx:671-741`; `v` has any previous content -/
def CTab.inverseAlgo (col : ℕ) (v : ℕ → K) : ℕ → K :=
  let v := upd v col 1
  let v := putSeg v (col + 1) (t.N - col - 1) (fun _ => 0)
  let v := downTo (fun k v => upd v k
    (-∑ c ∈ Ico (k + 1) (k + 1 + min (col - k) (t.nvt k - 1)), d.U k c * v c)) (min col (t.N - 1)) v
  let v := fun r => if r < col + 1 then v r * d.Dinv r else v r
  upTo (fun k v => addSeg v (k + 1) (t.nvt k - 1) (fun l => -(d.U k (k + 1 + l) * v k))) (col + 1) v

/-- `inverse`, `algorithm/contact-cholesky.hxx:744-759`; `X` has any previous content -/
def CTab.inverse (X : ℕ → ℕ → K) : ℕ → ℕ → K :=
  let X := upTo (fun col X =>
    let x := t.inverseAlgo d col (fun r => X r col)
    fun r c => if c = col ∧ r < t.N then x r else X r c) t.N X
  fun r c => if c < r ∧ r < t.N then X c r else X r c

/-- `getMassMatrixChoeslkyDecomposition`, `algorithm/contact-cholesky.hxx:360-374`: the tables and the factors -/
def CTab.massPart (s : Sys K) (T0 : ℕ → ℕ) : CTab × Chol K :=
  (CTab.alloc s [] T0,
    ⟨fun r c => d.U (t.nc + r) (t.nc + c), fun r => d.D (t.nc + r), fun r => d.Dinv (t.nc + r)⟩)

/-- `triangularView<UnitUpper>().solveInPlace(x)` of Eigen: back substitution, which reads the entries above the
diagonal only -/
def unitUpperSolve (n : ℕ) (A : ℕ → ℕ → K) (x : ℕ → K) : ℕ → K :=
  downTo (fun k x => upd x k (x k - ∑ c ∈ Ico (k + 1) n, A k c * x c)) n x

/-- `triangularView<UnitUpper>().adjoint().solveInPlace(x)` of Eigen: forward substitution -/
def unitUpperTrSolve (n : ℕ) (A : ℕ → ℕ → K) (x : ℕ → K) : ℕ → K :=
  upTo (fun k x => upd x k (x k - ∑ c ∈ range k, A c k * x c)) n x

/-- the columns of `unitUpperSolve` of the identity: `Uinv.setIdentity(); U.solveInPlace(Uinv)` -/
def unitUpperInv (n : ℕ) (A : ℕ → ℕ → K) (r c : ℕ) : K := unitUpperSolve n A (fun k => if k = c then 1 else 0) r

/-- `getInverseOperationalSpaceInertiaMatrix`, `algorithm/contact-cholesky.hpp:175-188` -/
def CTab.osimInv (r c : ℕ) : K := ∑ k ∈ range t.nc, -d.U r k * (d.D k * d.U c k)

/-- `getOperationalSpaceInertiaMatrix`, `algorithm/contact-cholesky.hpp:207-224` -/
def CTab.osim (r c : ℕ) : K :=
  ∑ k ∈ range t.nc, -unitUpperInv t.nc d.U k r * d.Dinv k * unitUpperInv t.nc d.U k c

/-- the block `U4`, `algorithm/contact-cholesky.hpp:240-241`, `257-258` -/
def CTab.U4 (r c : ℕ) : K := d.U (t.nc + r) (t.nc + c)

/-- `getInverseMassMatrix`, `algorithm/contact-cholesky.hpp:233-249` -/
def CTab.massInv (r c : ℕ) : K :=
  ∑ k ∈ range t.nv, unitUpperInv t.nv (t.U4 d) k r * d.Dinv (t.nc + k) * unitUpperInv t.nv (t.U4 d) k c

/-- `getJMinv`, `algorithm/contact-cholesky.hpp:251-265` -/
def CTab.jMinv (r c : ℕ) : K := ∑ k ∈ range t.nv, d.U r (t.nc + k) * unitUpperInv t.nv (t.U4 d) k c

/-- `DelassusCholeskyExpression::applyOnTheRight` and `operator*`, `algorithm/contact-cholesky.hpp:535-580`; the
triangular products read the entries above the diagonal only -/
def CTab.delassusApply (x : ℕ → K) (r : ℕ) : K :=
  let y := fun r => (x r + ∑ k ∈ range r, d.U k r * x k) * -d.D r
  y r + ∑ c ∈ Ico (r + 1) t.nc, d.U r c * y c

/-- `DelassusCholeskyExpression::solveInPlace` and `solve`, `algorithm/contact-cholesky.hpp:582-615` -/
def CTab.delassusSolve (x : ℕ → K) : ℕ → K :=
  let x := unitUpperSolve t.nc d.U x
  let x := fun r => if r < t.nc then x r * -d.Dinv r else x r
  unitUpperTrSolve t.nc d.U x

end
end Pin
