import Verif.LieGroup.ExpLog
import Verif.LieGroup.GroupLemmas

/-!
# Where the exponential and logarithm code leaves its expansions

Conditions on the arguments under which the theorems of C57 hold, and the distances they use. `prec ε d` is the
threshold `TaylorSeriesExpansion<Scalar>::precision<d>()`.
-/

namespace Pin
namespace Lie
open Real

/-- trace of a matrix -/
def trace (R : M3 ℝ) : ℝ := R.m00 + R.m11 + R.m22

/-- the rotations on which `log3` takes its exact branch -/
structure Nominal (ε : ℝ) (R : M3 ℝ) : Prop where
  rot : R.IsRot
  lo : -1 + 2 * prec ε 2 ≤ trace R
  hi : trace R ≤ 3 - prec ε 2

/-- strictly inside the exact branch of `log3`, so that nearby rotations are in it too -/
structure Interior (ε : ℝ) (R : M3 ℝ) : Prop where
  lo : -1 + 2 * prec ε 2 < trace R
  hi : trace R < 3 - prec ε 2

/-- the rotation vectors of less than half a turn on whose rotation `log3` takes its exact branch -/
structure NomVec (ε : ℝ) (w : V3 ℝ) : Prop where
  lt : norm3 w < π
  lo : prec ε 2 ≤ 1 + cos (norm3 w)
  hi : prec ε 2 ≤ 2 * (1 - cos (norm3 w))

/-- entrywise distance between matrices -/
structure Near (a b : M3 ℝ) (d : ℝ) : Prop where
  m00 : |a.m00 - b.m00| ≤ d
  m01 : |a.m01 - b.m01| ≤ d
  m02 : |a.m02 - b.m02| ≤ d
  m10 : |a.m10 - b.m10| ≤ d
  m11 : |a.m11 - b.m11| ≤ d
  m12 : |a.m12 - b.m12| ≤ d
  m20 : |a.m20 - b.m20| ≤ d
  m21 : |a.m21 - b.m21| ≤ d
  m22 : |a.m22 - b.m22| ≤ d

/-- the unit quaternion of the rotation vector `v`: `(sin(|v|/2) v/|v|, cos(|v|/2))` -/
noncomputable def qexp (v : V3 ℝ) : Quat ℝ := qmk ((sin (norm3 v / 2) / norm3 v) • v) (cos (norm3 v / 2))

/-- moving with velocity `v`, the code leaves its expansions and is away from the singularity of `Jexp6` at the
full turns -/
def StepOk (ε : ℝ) (g : LG) (v : ℕ → ℝ) : Prop := match g with
  | .vec _ => True
  | .so2 => True
  | .so3 => prec ε 3 ≤ norm3 (vecAt v 0)
  | .se2 => 1 / 10 ^ 14 < |v 2| ∧ prec ε 3 ≤ |v 2| ∧ cos (v 2) ≠ 1
  | .se3 => prec ε 3 ≤ norm3 (vecAt v 3) ∧ cos (norm3 (vecAt v 3)) ≠ 1

/-- how far the block of `dIntegrate` with respect to the configuration is from the exact one -/
noncomputable def stepTol (ε : ℝ) (g : LG) (v : ℕ → ℝ) : ℝ := match g with
  | .so3 => 5 * ε
  | .se3 => (5 + 136 * norm3 (vecAt v 0)) * ε
  | _ => 0

/-- the difference is not close to half a turn and not small: the code leaves its expansions -/
def DiffOk (ε : ℝ) (g : LG) (d : ℕ → ℝ) : Prop := match g with
  | .vec _ => True
  | .so2 => True
  | .so3 => prec ε 2 < 1 + cos (norm3 (vecAt d 0)) ∧ prec ε 2 < 2 * (1 - cos (norm3 (vecAt d 0)))
  | .se2 => 1 / 10 ^ 4 ≤ |d 2|
  | .se3 => prec ε 2 < 1 + cos (norm3 (vecAt d 3)) ∧ prec ε 2 < 2 * (1 - cos (norm3 (vecAt d 3)))

/-- where `integrate` of a group is exact: not for SO(3) and SE(3), whose quaternion maps are regularised by `ε` -/
def ExactStep (g : LG) (q v : ℕ → ℝ) : Prop := match g with
  | .vec _ => True
  | .so2 => LG.Unit .so2 q
  | .se2 => v 2 = 0 ∨ 1 / 10 ^ 14 < |v 2|
  | _ => False

/-- where `difference` of a group is exact: not for SO(3) and SE(3) -/
def ExactDiff (g : LG) (q0 q1 : ℕ → ℝ) : Prop := match g with
  | .vec _ => True
  | .so2 => LG.Unit .so2 q0 ∧ LG.Unit .so2 q1 ∧ so2Diff q0 q1 ≠ π
  | .se2 => LG.Unit .se2 q0 ∧ LG.Unit .se2 q1 ∧ (se2Angle q0 q1 = 0 ∨ 1 / 10 ^ 4 ≤ |se2Angle q0 q1|) ∧
      se2Angle q0 q1 ≠ π
  | _ => False

/-- the matrix with zeros beside the blocks of the joints -/
def OffZero (m : Model ℝ LJ) (J : ℕ → ℕ → ℝ) : Prop :=
  ∀ s ∈ slotsOf m, ∀ i j, s.iv ≤ i ∧ i < s.iv + s.g.nv → ¬(s.iv ≤ j ∧ j < s.iv + s.g.nv) → J i j = 0

end Lie
end Pin
