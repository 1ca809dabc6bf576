import Verif.LieGroup.Defs
import Verif.Algo.Kinematics

/-!
# Roll, pitch, yaw

Models `math/rpy.hxx`, over the real numbers. Simplifications: real arithmetic, so no rounding and no negative zero;
the assertion `R.isUnitary()` of `matrixToRpy` is a hypothesis of the theorems; `RF` has the three values of
`ReferenceFrame`, so the `default` cases, which throw, are not reachable here.
-/

namespace Pin
namespace Rpy
open Real

/-- The quaternion of Eigen's `AngleAxis(angle, axis)` -/
noncomputable def angleAxis (t : ℝ) (u : V3 ℝ) : Quat ℝ := ⟨sin (t / 2) * u.x, sin (t / 2) * u.y, sin (t / 2) * u.z, cos (t / 2)⟩

/-- `rpyToMatrix`, `math/rpy.hxx:16-33`: in Eigen the product of two `AngleAxis` is a quaternion -/
noncomputable def rpyToMatrix (r p y : ℝ) : M3 ℝ :=
  (angleAxis y ⟨0, 0, 1⟩ * angleAxis p ⟨0, 1, 0⟩ * angleAxis r ⟨1, 0, 0⟩).toMat

/-- `R.eulerAngles(2, 1, 0)` of Eigen (3.3, 3.4: `Geometry/EulerAngles.h`, the dependency is not in the repository), with the
indexes `i = 2`, `j = 1`, `k = 0` and `odd` -/
noncomputable def eulerAngles210 (R : M3 ℝ) : ℝ × ℝ × ℝ :=
  let a := Lie.atan2 R.m10 R.m00
  let c2 := sqrt (R.m22 * R.m22 + R.m21 * R.m21)
  let res0 := if a < 0 then (if a > 0 then a - π else a + π) else a
  let res1 := if a < 0 then Lie.atan2 (-R.m20) (-c2) else Lie.atan2 (-R.m20) c2
  let s1 := sin res0
  let c1 := cos res0
  (res0, res1, Lie.atan2 (s1 * R.m02 - c1 * R.m12) (c1 * R.m11 - s1 * R.m01))

/-- `matrixToRpy`, `math/rpy.hxx:35-65` -/
noncomputable def matrixToRpy (R : M3 ℝ) : ℝ × ℝ × ℝ :=
  let e := eulerAngles210 R
  let r := e.2.2
  let p := e.2.1
  let y := e.1
  let p := if p < -π / 2 then p + 2 * π else p
  if p > π / 2 then (if r < 0 then r + π else r - π, π - p, y - π) else (r, p, y)

/-- `computeRpyJacobian`, `math/rpy.hxx:67-101` -/
noncomputable def jacobian (r p y : ℝ) : RF → M3 ℝ
  | .LOCAL => ⟨1, 0, -sin p, 0, cos r, sin r * cos p, 0, -sin r, cos r * cos p⟩
  | .WORLD | .LOCAL_WORLD_ALIGNED => ⟨cos p * cos y, -sin y, 0, cos p * sin y, cos y, 0, -sin p, 0, 1⟩

/-- `computeRpyJacobianInverse`, `math/rpy.hxx:103-138` -/
noncomputable def jacobianInverse (r p y : ℝ) : RF → M3 ℝ
  | .LOCAL => ⟨1, sin r * (sin p / cos p), cos r * (sin p / cos p), 0, cos r, -sin r, 0, sin r / cos p, cos r / cos p⟩
  | .WORLD | .LOCAL_WORLD_ALIGNED =>
    ⟨cos y / cos p, sin y / cos p, 0, -sin y, cos y, 0, cos y * (sin p / cos p), sin y * (sin p / cos p), 1⟩

/-- `computeRpyJacobianTimeDerivative`, `math/rpy.hxx:140-182` -/
noncomputable def jacobianDot (r p y dr dp dy : ℝ) : RF → M3 ℝ
  | .LOCAL => ⟨0, 0, -cos p * dp, 0, -sin r * dr, cos r * cos p * dr - sin r * sin p * dp,
      0, -cos r * dr, -sin r * cos p * dr - cos r * sin p * dp⟩
  | .WORLD | .LOCAL_WORLD_ALIGNED =>
    ⟨-sin p * cos y * dp - cos p * sin y * dy, -cos y * dy, 0, cos p * cos y * dy - sin p * sin y * dp,
      -sin y * dy, 0, -cos p * dp, 0, 0⟩

end Rpy
end Pin
