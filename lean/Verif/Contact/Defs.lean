import Verif.Math.Quaternion
import Verif.Spatial.SE3
import Mathlib.Logic.Function.Basic

/-!
# Friction cones and contact solvers

`algorithm/constraints/coulomb-friction-cone.hpp`, `algorithm/contact-solver-utils.hpp`, `algorithm/pgs-solver.hxx`,
`algorithm/admm-solver.hxx`, `algorithm/contact-inverse-dynamics.hpp`, over an ordered field with a square root. The `assert`s
are compiled out. Division by zero gives `0` in the model (an infinity or a NaN in the code): statements about the solvers
that need it assume that the denominators are not zero. `check_expression_if_real` is the identity here.
-/

namespace Pin
universe u
variable {K : Type u} [Field K] [LinearOrder K] [HasSqrt K]

/-- `f.head<2>().norm()` -/
def tnorm (f : V3 K) : K := HasSqrt.sqrt (f.x * f.x + f.y * f.y)

/-- Eigen `norm()` -/
def V3.norm (f : V3 K) : K := HasSqrt.sqrt f.sqNorm

/-- Eigen `normalize()`: divides by the norm if the squared norm is positive -/
def V3.normalize (f : V3 K) : V3 K :=
  if f.sqNorm > 0 then ⟨f.x / HasSqrt.sqrt f.sqNorm, f.y / HasSqrt.sqrt f.sqNorm, f.z / HasSqrt.sqrt f.sqNorm⟩ else f

/-- `CoulombFrictionConeTpl`, `coulomb-friction-cone.hpp:20-200` -/
structure Cone (K : Type u) where
  mu : K

namespace Cone

/-- `isInside(f, prec)`, `coulomb-friction-cone.hpp:57-64` -/
def isInside (c : Cone K) (f : V3 K) (prec : K) : Bool := decide (tnorm f ≤ c.mu * f.z + prec)

/-- `project(x)`, `coulomb-friction-cone.hpp:70-99` -/
def project (c : Cone K) (x : V3 K) : V3 K :=
  let z := x.z
  let muZ := c.mu * z
  let tn := tnorm x
  if c.mu * tn ≤ -z then 0
  else if tn ≤ muZ then x
  else
    let res : V3 K := ⟨(c.mu / tn) * x.x, (c.mu / tn) * x.y, 1⟩
    let res := res.normalize
    let scale := x.dot res
    scale • res

/-- `weightedProject(x, R)`, `coulomb-friction-cone.hpp:107-121` -/
def weightedProject (c : Cone K) (x R : V3 K) : V3 K :=
  let weighted : Cone K := ⟨c.mu * HasSqrt.sqrt (R.x / R.z)⟩
  let S : V3 K := ⟨HasSqrt.sqrt R.x, HasSqrt.sqrt R.y, HasSqrt.sqrt R.z⟩
  let p := weighted.project ⟨S.x * x.x, S.y * x.y, S.z * x.z⟩
  ⟨p.x / S.x, p.y / S.y, p.z / S.z⟩

/-- `computeNormalCorrection(v)`, `coulomb-friction-cone.hpp:128-140` -/
def normalCorrection (c : Cone K) (v : V3 K) : V3 K := ⟨0, 0, c.mu * tnorm v⟩

/-- `computeRadialProjection(f)`, `coulomb-friction-cone.hpp:146-167` -/
def radialProjection (c : Cone K) (f : V3 K) : V3 K :=
  let n := tnorm f
  let fz := max 0 f.z
  let muFz := c.mu * fz
  if n > muFz then ⟨(muFz / n) * f.x, (muFz / n) * f.y, fz⟩ else ⟨f.x, f.y, fz⟩

/-- `computeContactComplementarity(v, f)`, `coulomb-friction-cone.hpp:169-175` -/
def contactComplementarity (c : Cone K) (v f : V3 K) : K := |f.dot (v + c.normalCorrection v)|

/-- `computeConicComplementarity(v, f)`, `coulomb-friction-cone.hpp:177-182` -/
def conicComplementarity (_c : Cone K) (v f : V3 K) : K := |f.dot v|

/-- `DualCoulombFrictionConeTpl::isInside(v, prec)`, `coulomb-friction-cone.hpp:246-252` -/
def dualIsInside (c : Cone K) (v : V3 K) (prec : K) : Bool := decide (c.mu * tnorm v ≤ v.z + prec)

/-- `DualCoulombFrictionConeTpl::project(x)`, `coulomb-friction-cone.hpp:247-275` -/
def dualProject (c : Cone K) (x : V3 K) : V3 K :=
  let z := x.z
  let tn := tnorm x
  if tn ≤ -c.mu * z then 0
  else if c.mu * tn ≤ z then x
  else
    let res : V3 K := ⟨x.x, x.y, c.mu * tn⟩
    let res := res.normalize
    let scale := x.dot res
    scale • res

end Cone

/-! ## vectors of contacts -/

/-- `x.segment<3>(3 * c)` -/
def seg3 (x : ℕ → K) (c : ℕ) : V3 K := ⟨x (3 * c), x (3 * c + 1), x (3 * c + 2)⟩

/-- `x.segment<3>(3 * c) = s` -/
def setSeg3 (x : ℕ → K) (c : ℕ) (s : V3 K) : ℕ → K := fun i =>
  if i = 3 * c then s.x else if i = 3 * c + 1 then s.y else if i = 3 * c + 2 then s.z else x i

/-- `lpNorm<Eigen::Infinity>()` of a vector of size `n` -/
def normInf (n : ℕ) (x : ℕ → K) : K := (List.range n).foldl (fun m i => max m |x i|) 0

/-- `computeConeProjection`, `contact-solver-utils.hpp:20-39` -/
def coneProjection (cones : List (Cone K)) (x y : ℕ → K) : ℕ → K :=
  (List.range cones.length).foldl (fun y c => setSeg3 y c ((cones.getD c ⟨0⟩).project (seg3 x c))) y

/-- `computeDualConeProjection`, `contact-solver-utils.hpp:42-61` (`x` and `y` may be the same vector) -/
def dualConeProjection (cones : List (Cone K)) (x y : ℕ → K) : ℕ → K :=
  (List.range cones.length).foldl (fun y c => setSeg3 y c ((cones.getD c ⟨0⟩).dualProject (seg3 x c))) y

/-- `computeConicComplementarity`, `contact-solver-utils.hpp:63-85` -/
def conicComplementarity (cones : List (Cone K)) (v f : ℕ → K) : K :=
  (List.range cones.length).foldl (fun m c => max m ((cones.getD c ⟨0⟩).conicComplementarity (seg3 v c) (seg3 f c))) 0

/-- `computeComplementarityShift`, `contact-solver-utils.hpp:87-106` -/
def complementarityShift (cones : List (Cone K)) (v shift : ℕ → K) : ℕ → K :=
  (List.range cones.length).foldl (fun s c => setSeg3 s c ((cones.getD c ⟨0⟩).normalCorrection (seg3 v c))) shift

/-- `computePrimalFeasibility`, `contact-solver-utils.hpp:108-127` -/
def primalFeasibility (cones : List (Cone K)) (f : ℕ → K) : K :=
  (List.range cones.length).foldl (fun m c => max m ((cones.getD c ⟨0⟩).project (seg3 f c) - seg3 f c).norm) 0

/-- `computeReprojectionError`, `contact-solver-utils.hpp:129-154` -/
def reprojectionError (cones : List (Cone K)) (f v : ℕ → K) : K :=
  (List.range cones.length).foldl
    (fun m c => max m (seg3 f c - (cones.getD c ⟨0⟩).project (seg3 f c - seg3 v c)).norm) 0

/-! ## projected Gauss-Seidel -/

/-- `(G * x)(i)` for a matrix with `n` columns -/
def matVec (n : ℕ) (G : ℕ → ℕ → K) (x : ℕ → K) (i : ℕ) : K := (List.range n).foldl (fun m j => m + G i j * x j) 0

/-- the state carried along a sweep: iterate, complementarity, dual feasibility -/
structure PgsSt (K : Type u) where
  x : ℕ → K
  compl : K
  dual : K

/-- body of the loop over the contacts, `pgs-solver.hxx:60-105`. The velocity used for the residuals is not the one of the new
iterate: `velocity.noalias() = G_block.leftCols<2>() * (f_tangent - f_tangent_previous)` assigns where an increment
was meant. -/
def pgsContact (n : ℕ) (G : ℕ → ℕ → K) (g : ℕ → K) (w : K) (cone : Cone K) (c : ℕ) (s : PgsSt K) : PgsSt K :=
  let r := 3 * c
  let velocity : V3 K := ⟨matVec n G s.x r + g r, matVec n G s.x (r + 1) + g (r + 1), matVec n G s.x (r + 2) + g (r + 2)⟩
  let f := seg3 s.x c
  let fz := max 0 (f.z - (w / G (r + 2) (r + 2)) * velocity.z)
  let velocity : V3 K := velocity + ⟨G r (r + 2) * (fz - f.z), G (r + 1) (r + 2) * (fz - f.z), G (r + 2) (r + 2) * (fz - f.z)⟩
  let minD := min (G r r) (G (r + 1) (r + 1))
  let tx := f.x - w / minD * velocity.x
  let ty := f.y - w / minD * velocity.y
  let tn := HasSqrt.sqrt (tx * tx + ty * ty)
  let muFz := cone.mu * fz
  let f' : V3 K := if tn > muFz then ⟨tx * (muFz / tn), ty * (muFz / tn), fz⟩ else ⟨tx, ty, fz⟩
  let velocity : V3 K := ⟨G r r * (f'.x - f.x) + G r (r + 1) * (f'.y - f.y),
    G (r + 1) r * (f'.x - f.x) + G (r + 1) (r + 1) * (f'.y - f.y),
    G (r + 2) r * (f'.x - f.x) + G (r + 2) (r + 1) * (f'.y - f.y)⟩
  let compl := max s.compl (cone.contactComplementarity velocity f')
  let velocity := velocity + cone.normalCorrection velocity
  let dual := max s.dual (cone.dualProject velocity - velocity).norm
  ⟨setSeg3 s.x c f', compl, dual⟩

/-- one iteration, `pgs-solver.hxx:55-106` -/
def pgsSweep (n : ℕ) (G : ℕ → ℕ → K) (g : ℕ → K) (w : K) (cones : List (Cone K)) (x : ℕ → K) : PgsSt K :=
  (List.range cones.length).foldl (fun s c => pgsContact n G g w (cones.getD c ⟨0⟩) c s) ⟨x, 0, 0⟩

/-- what `solve` leaves: iterate, answers of the two tests, residuals (undefined before the first iteration), iterations -/
structure PgsOut (K : Type u) where
  x : ℕ → K
  absReached : Bool
  relReached : Bool
  absRes : Option K
  relRes : Option K
  it : ℕ

/-- the loop of `solve`, `pgs-solver.hxx:53-131`: `left` iterations are left, `o` is what has been reached -/
def pgsLoop (n : ℕ) (G : ℕ → ℕ → K) (g : ℕ → K) (w absPrec relPrec : K) (cones : List (Cone K)) :
    ℕ → K → PgsOut K → PgsOut K
  | 0, _, o => o
  | left + 1, prevNorm, o =>
    let s := pgsSweep n G g w cones o.x
    let absReached := decide (s.compl ≤ absPrec) && decide (s.dual ≤ absPrec)
    let metric := normInf n (fun i => s.x i - o.x i)
    let nrm := normInf n s.x
    let relReached := decide (metric ≤ relPrec * max nrm prevNorm)
    let o' : PgsOut K := ⟨s.x, absReached, relReached, some (max s.compl s.dual), some metric, o.it⟩
    if absReached || relReached then o' else pgsLoop n G g w absPrec relPrec cones left nrm { o' with it := o.it + 1 }

/-- `PGSContactSolverTpl::solve`, `pgs-solver.hxx:13-142`, once the arguments are checked; it returns
`absReached || relReached`. With `max_it = 0` the residuals are read uninitialised (`none`). -/
def pgsSolve (n : ℕ) (G : ℕ → ℕ → K) (g : ℕ → K) (w absPrec relPrec : K) (maxIt : ℕ) (cones : List (Cone K)) (x : ℕ → K) :
    PgsOut K :=
  pgsLoop n G g w absPrec relPrec cones maxIt (normInf n x) ⟨x, false, false, none, none, 0⟩

/-! ## ADMM -/

/-- variables of the solver -/
structure AdmmSt (K : Type u) where
  x : ℕ → K
  y : ℕ → K
  z : ℕ → K
  s : ℕ → K
  rho : K
  primal : K
  dual : K
  compl : K

/-- one iteration of `ADMMContactSolverTpl::solve` up to the stopping test, `admm-solver.hxx:152-216`. `solve d b` is
`delassus.updateDamping(d)` followed by `solveInPlace(b)`; `R + prox_value` is the damping. -/
def admmIter (n : ℕ) (solve : (ℕ → K) → (ℕ → K) → ℕ → K) (g R : ℕ → K) (cones : List (Cone K)) (muProx tau : K)
    (a : AdmmSt K) : AdmmSt K :=
  let s := complementarityShift cones a.z a.s
  let rhs : ℕ → K := fun i => -(g i + s i - (a.rho * tau) * a.y i - muProx * a.x i - a.z i)
  let x := solve (fun i => R i + (muProx + tau * a.rho)) rhs
  let y := coneProjection cones (fun i => x i - a.z i / (tau * a.rho)) a.y
  let z : ℕ → K := fun i => a.z i - (tau * a.rho) * (x i - y i)
  let dualVec : ℕ → K := fun i => (tau * a.rho) * (y i - a.y i) + muProx * (x i - a.x i)
  ⟨x, y, z, s, a.rho, normInf n (fun i => x i - y i), normInf n dualVec, conicComplementarity cones z y⟩

/-- update of `rho`, `admm-solver.hxx:246-268` -/
def admmRho (ratio incr : K) (a : AdmmSt K) : AdmmSt K :=
  if a.primal > ratio * a.dual then { a with rho := a.rho * incr }
  else if a.dual > ratio * a.primal then { a with rho := a.rho / incr }
  else a

/-- the loop, `admm-solver.hxx:144-275`: the flag returned, and the variables -/
def admmLoop (n : ℕ) (solve : (ℕ → K) → (ℕ → K) → ℕ → K) (g R : ℕ → K) (cones : List (Cone K))
    (muProx tau absPrec ratio incr : K) : ℕ → AdmmSt K → Bool × AdmmSt K
  | 0, a => (false, a)
  | left + 1, a =>
    let a' := admmIter n solve g R cones muProx tau a
    if a'.compl ≤ absPrec ∧ a'.dual ≤ absPrec ∧ a'.primal ≤ absPrec then (true, a')
    else admmLoop n solve g R cones muProx tau absPrec ratio incr left (admmRho ratio incr a')

/-! ## contact inverse dynamics -/

/-- one contact of one iteration of `computeContactImpulses`, `contact-inverse-dynamics.hpp:102-121` -/
def impulseContact (cref R : ℕ → K) (mu : K) (prev : ℕ → K) (cone : Cone K) (c : ℕ) (lam : ℕ → K) : ℕ → K :=
  let f := seg3 lam c
  let r := seg3 R c
  let cr := seg3 cref c
  let p := seg3 prev c
  let rp : V3 K := ⟨r.x + mu, r.y + mu, r.z + mu⟩
  let d := cone.normalCorrection (cr + ⟨r.x * f.x, r.y * f.y, r.z * f.z⟩)
  let t := cr + d - mu • p
  let lam := setSeg3 lam c ⟨-(t.x / rp.x), -(t.y / rp.y), -(t.z / rp.z)⟩
  setSeg3 lam c (cone.weightedProject (seg3 lam c) rp)

/-- one iteration of `computeContactImpulses`, `contact-inverse-dynamics.hpp:98-123` -/
def impulseSweep (cref R : ℕ → K) (mu : K) (cones : List (Cone K)) (lam : ℕ → K) : ℕ → K :=
  (List.range cones.length).foldl (fun l c => impulseContact cref R mu lam (cones.getD c ⟨0⟩) c l) lam

/-- the loop of `computeContactImpulses`, `contact-inverse-dynamics.hpp:43-147`: only the relative test can stop it. The
argument `constraint_correction` is added to `c_ref` in a local variable that is never read. -/
def impulseLoop (n : ℕ) (cref R : ℕ → K) (mu relAcc : K) (cones : List (Cone K)) : ℕ → K → (ℕ → K) → ℕ → K
  | 0, _, lam => lam
  | left + 1, prevNorm, lam =>
    let lam' := impulseSweep cref R mu cones lam
    let nrm := normInf n lam'
    if normInf n (fun i => lam' i - lam i) ≤ relAcc * max nrm prevNorm then lam'
    else impulseLoop n cref R mu relAcc cones left nrm lam'

/-- `computeContactImpulses`, `contact-inverse-dynamics.hpp:43-147`, the Jacobian (computed and not used) aside. `n` is the
size of `R`, `sz` the size of `data.impulse_c` when the function is called. Without a guess that vector is
zeroed but not resized (`data.hxx:115` creates it empty), and the number of cones is never compared with `n`: the result is
undefined (`none`) when a segment is read or written past the end. A guess of the wrong size throws: not in the model, whose
guesses have size `n`. -/
def computeContactImpulses (n sz : ℕ) (cref R _constraintCorrection : ℕ → K) (mu relAcc : K) (maxIt : ℕ)
    (cones : List (Cone K)) (guess : Option (ℕ → K)) : Option (ℕ → K) :=
  let lam := guess.getD (fun _ => 0)
  let sz := if guess.isSome then n else sz
  if maxIt ≠ 0 ∧ min sz n < 3 * cones.length then none
  else some (impulseLoop sz cref R mu relAcc cones maxIt (normInf sz lam) lam)

/-- what `contactInverseDynamics` reads of a `RigidConstraintModel` -/
structure ContactPair (K : Type u) where
  joint1 : ℕ
  joint2 : ℕ
  placement1 : SE3 K
  placement2 : SE3 K

instance : Inhabited (ContactPair K) := ⟨⟨0, 0, 1, 1⟩⟩

/-- the external forces that `contactInverseDynamics` gives to `rnea`, `contact-inverse-dynamics.hpp:228-249`:
`toActionMatrixInverse().transpose().leftCols<3>() * lambda` is the action of the placement on the force `(lambda, 0)` -/
def contactFext (contacts : List (ContactPair K)) (lam : ℕ → K) : ℕ → Force K :=
  (List.range contacts.length).foldl (fun f k =>
    let c := contacts.getD k default
    let l : Force K := ⟨seg3 lam k, 0⟩
    let f := Function.update f c.joint1 (f c.joint1 + c.placement1.actF l)
    Function.update f c.joint2 (f c.joint2 + c.placement2.actF l)) (fun _ => 0)

end Pin
