import Verif.Spec.ExpMap
import Mathlib.Analysis.SpecialFunctions.Trigonometric.Deriv

/-!
# Roll, pitch and yaw

The elementary rotations, and the angular velocity of a moving orientation in the world frame.
-/

namespace Pin
namespace Spec
open Real

/-- the rotation by `t` about the first axis -/
noncomputable def rotX (t : ℝ) : M3 ℝ := ⟨1, 0, 0, 0, cos t, -sin t, 0, sin t, cos t⟩
/-- the rotation by `t` about the second axis -/
noncomputable def rotY (t : ℝ) : M3 ℝ := ⟨cos t, 0, sin t, 0, 1, 0, -sin t, 0, cos t⟩
/-- the rotation by `t` about the third axis -/
noncomputable def rotZ (t : ℝ) : M3 ℝ := ⟨cos t, -sin t, 0, sin t, cos t, 0, 0, 0, 1⟩

/-- at time `t` the moving orientation `R` turns with angular velocity `w`, expressed in the world:
`R' = [w]× R` -/
def AngVelWorld (R : ℝ → M3 ℝ) (w : V3 ℝ) (t : ℝ) : Prop := MDeriv R (M3.skew w * R t) t

end Spec
end Pin
