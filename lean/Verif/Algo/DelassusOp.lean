import Mathlib.Data.Matrix.Mul
import Mathlib.LinearAlgebra.Matrix.Notation
import Mathlib.Data.Rat.Floor
import Mathlib.Data.Int.Log
import Mathlib.Algebra.Order.Round

/-!
# Delassus operators

`DelassusOperatorDenseTpl`, `algorithm/delassus-operator-dense.hpp:28-148`, and `DelassusOperatorSparseTpl`,
`algorithm/delassus-operator-sparse.hpp:110-256`. An operator is an object that lives through many calls of a contact
solver: it holds the Delassus matrix, a damping vector, the damped matrix and a Cholesky decomposition.

The decompositions are those of Eigen and are not modelled: `Chol` is any decomposition. What is modelled is which
matrix they are given, and what the operator does with their results. The additions of the damping go through a
parameter `add`, the addition of the scalar type: `(· + ·)` in exact arithmetic, a rounded addition for floating-point
numbers. Checks of sizes are not modelled: sizes are in the types.
-/

namespace Pin.Delassus
open Matrix
variable {K : Type*} {n : ℕ}

abbrev Mat (K : Type*) (n : ℕ) := Matrix (Fin n) (Fin n) K

/-- Eigen's Cholesky decomposition: `ok M` when the decomposition of `M` succeeds (`info() == Success`),
`solve M b` what the substitution with the factors of `M` returns -/
structure Chol (K : Type*) (n : ℕ) where
  ok : Mat K n → Prop
  solve : Mat K n → (Fin n → K) → (Fin n → K)

/-- `m += vec.asDiagonal()` -/
def addDiag (add : K → K → K) (m : Mat K n) (vec : Fin n → K) : Mat K n :=
  Matrix.of fun i j => if i = j then add (m i j) (vec i) else m i j

/-! ## dense -/

/-- The members of `DelassusOperatorDenseTpl`, `algorithm/delassus-operator-dense.hpp:142-146`; `llt` is the matrix the
decomposition was last computed of. -/
structure Dense (K : Type*) (n : ℕ) where
  delassus_matrix : Mat K n
  mat_tmp : Mat K n
  llt : Mat K n
  damping : Fin n → K

/-- the constructor, `algorithm/delassus-operator-dense.hpp:45-54` (`mat_tmp` is not initialised: any matrix) -/
def Dense.mk' [Zero K] (mat junk : Mat K n) : Dense K n := ⟨mat, junk, mat, fun _ => 0⟩

/-- `updateDamping(vec)`, `algorithm/delassus-operator-dense.hpp:56-63` -/
def Dense.updateDamping (add : K → K → K) (vec : Fin n → K) (o : Dense K n) : Dense K n :=
  let o := { o with damping := vec }
  let o := { o with mat_tmp := o.delassus_matrix }
  let o := { o with mat_tmp := addDiag add o.mat_tmp vec }
  { o with llt := o.mat_tmp }

/-- `updateDamping(mu)`, `algorithm/delassus-operator-dense.hpp:65-68` -/
def Dense.updateDampingScalar (add : K → K → K) (mu : K) (o : Dense K n) : Dense K n :=
  o.updateDamping add (fun _ => mu)

/-- `matrix()`, `algorithm/delassus-operator-dense.hpp:128-133`: the value and the object, whose mutable member
changes -/
def Dense.matrix (add : K → K → K) (o : Dense K n) : Mat K n × Dense K n :=
  let o := { o with mat_tmp := o.delassus_matrix }
  let o := { o with mat_tmp := addDiag add o.mat_tmp o.damping }
  (o.mat_tmp, o)

/-- `solveInPlace` on a vector, and the two `solve`, `algorithm/delassus-operator-dense.hpp:70-92` -/
def Dense.solve (c : Chol K n) (o : Dense K n) (b : Fin n → K) : Fin n → K := c.solve o.llt b

/-- `applyOnTheRight` and `operator*`, `algorithm/delassus-operator-dense.hpp:94-113` -/
def Dense.apply [NonUnitalNonAssocSemiring K] (o : Dense K n) (x : Fin n → K) : Fin n → K :=
  fun i => (o.delassus_matrix *ᵥ x) i + o.damping i * x i

/-- `inverse()`, `algorithm/delassus-operator-dense.hpp:135-140`: the columns of the identity are solved for -/
def Dense.inverse [Zero K] [One K] (c : Chol K n) (o : Dense K n) : Mat K n :=
  Matrix.of fun i j => c.solve o.llt (fun k => if k = j then 1 else 0) i

/-! ## sparse -/

/-- The members of `DelassusOperatorSparseTpl`, `algorithm/delassus-operator-sparse.hpp:249-254`. `perm` says that the
decomposition reorders the unknowns (`m_P.size() > 0`), which is the case of the default ordering of Eigen and not of
`Eigen::NaturalOrdering`. A sparse matrix is the matrix of its coefficients: the pattern of non-zeros is not
modelled. -/
structure Sparse (K : Type*) (n : ℕ) where
  delassus_matrix : Mat K n
  plus : Mat K n
  llt : Mat K n
  damping : Fin n → K
  perm : Bool

/-- the constructor, `algorithm/delassus-operator-sparse.hpp:145-155` -/
def Sparse.mk' [Zero K] (perm : Bool) (mat : Mat K n) : Sparse K n := ⟨mat, mat, mat, fun _ => 0, perm⟩

/-- `updateDamping(vec)`, `algorithm/delassus-operator-sparse.hpp:156-168`: the damped matrix is updated in place by
the difference of the dampings -/
def Sparse.updateDamping [Neg K] (add : K → K → K) (vec : Fin n → K) (o : Sparse K n) : Sparse K n :=
  let o := { o with plus := addDiag add o.plus (fun k => add (-o.damping k) (vec k)) }
  let o := { o with damping := vec }
  { o with llt := o.plus }

/-- `updateDamping(mu)`, `algorithm/delassus-operator-sparse.hpp:170-173` -/
def Sparse.updateDampingScalar [Neg K] (add : K → K → K) (mu : K) (o : Sparse K n) : Sparse K n :=
  o.updateDamping add (fun _ => mu)

/-- `matrix()`, `algorithm/delassus-operator-sparse.hpp:234-239` -/
def Sparse.matrix (add : K → K → K) (o : Sparse K n) : Mat K n × Sparse K n :=
  let o := { o with plus := o.delassus_matrix }
  let o := { o with plus := addDiag add o.plus o.damping }
  (o.plus, o)

open Classical in
/-- `SimplicialCholeskyWrapper::_solve_impl(b, dest, tmp)`, `algorithm/delassus-operator-sparse.hpp:29-58`: nothing is
written when the decomposition failed; the solution, in `tmp`, is copied in `dest` only when there is a permutation -/
noncomputable def solveImpl (c : Chol K n) (M : Mat K n) (perm : Bool) (b dest : Fin n → K) : Fin n → K :=
  if c.ok M then
    let tmp := c.solve M b
    if perm then tmp else dest
  else dest

/-- `solveInPlace(mat)` on a vector, `algorithm/delassus-operator-sparse.hpp:175-180, 87-105`: the argument is the right-hand
side and the destination; `solve(mat)`, lines 182-189, calls it on a copy of `mat` -/
noncomputable def Sparse.solve (c : Chol K n) (o : Sparse K n) (b : Fin n → K) : Fin n → K :=
  solveImpl c o.llt o.perm b b

/-- `solve(x, res)`, `algorithm/delassus-operator-sparse.hpp:191-198`, through Eigen -/
def Sparse.solveOut (c : Chol K n) (o : Sparse K n) (b : Fin n → K) : Fin n → K := c.solve o.llt b

/-- `applyOnTheRight` and `operator*`, `algorithm/delassus-operator-sparse.hpp:200-219` -/
def Sparse.apply [NonUnitalNonAssocSemiring K] (o : Sparse K n) (x : Fin n → K) : Fin n → K :=
  fun i => (o.delassus_matrix *ᵥ x) i + o.damping i * x i

/-- `inverse()`, `algorithm/delassus-operator-sparse.hpp:241-247`, through Eigen -/
def Sparse.inverse [Zero K] [One K] (c : Chol K n) (o : Sparse K n) : Mat K n :=
  Matrix.of fun i j => c.solve o.llt (fun k => if k = j then 1 else 0) i

/-! ## histories -/

/-- the calls that change an operator -/
inductive Call (K : Type*) (n : ℕ) where
  | updateDamping (vec : Fin n → K)
  | updateDampingScalar (mu : K)
  | matrix

def Dense.call (add : K → K → K) (o : Dense K n) : Call K n → Dense K n
  | .updateDamping v => o.updateDamping add v
  | .updateDampingScalar mu => o.updateDampingScalar add mu
  | .matrix => (o.matrix add).2

def Sparse.call [Neg K] (add : K → K → K) (o : Sparse K n) : Call K n → Sparse K n
  | .updateDamping v => o.updateDamping add v
  | .updateDampingScalar mu => o.updateDampingScalar add mu
  | .matrix => (o.matrix add).2

/-- the object after a history of calls -/
def Dense.run (add : K → K → K) (o : Dense K n) (h : List (Call K n)) : Dense K n := h.foldl (Dense.call add) o
def Sparse.run [Neg K] (add : K → K → K) (o : Sparse K n) (h : List (Call K n)) : Sparse K n :=
  h.foldl (Sparse.call add) o

/-- Rounding to the nearest number with a significand of 53 bits (that of `double`). Bounds on the exponent are not
modelled, and ties go up. -/
def rnd53 (x : ℚ) : ℚ :=
  let ulp : ℚ := 2 ^ (Int.log 2 |x| - 52)
  round (x / ulp) * ulp

/-- the addition of `double` -/
def add53 (x y : ℚ) : ℚ := rnd53 (x + y)

end Pin.Delassus
