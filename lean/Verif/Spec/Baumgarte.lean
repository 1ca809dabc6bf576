import Verif.Algo.ConstraintDynamics
import Verif.Algo.Jacobian

/-! # Specification: accelerations that a rigid constraint asks for -/

namespace Pin
variable {K : Type*} [CommRing K]

/-- Baumgarte's feedback: `-Kp e - Kd ė`, component by component -/
def baumgarte (k : Corr K) (e e' : Motion K) : Motion K where
  lin := ⟨-(k.Kp 0 * e.lin.x) - k.Kd 0 * e'.lin.x, -(k.Kp 1 * e.lin.y) - k.Kd 1 * e'.lin.y,
    -(k.Kp 2 * e.lin.z) - k.Kd 2 * e'.lin.z⟩
  ang := ⟨-(k.Kp 3 * e.ang.x) - k.Kd 3 * e'.ang.x, -(k.Kp 4 * e.ang.y) - k.Kd 4 * e'.ang.y,
    -(k.Kp 5 * e.ang.z) - k.Kd 5 * e'.ang.z⟩

/-- linear and angular parts in other axes -/
def Motion.rotate (R : M3 K) (m : Motion K) : Motion K := ⟨R.mulVec m.lin, R.mulVec m.ang⟩

/-- the axes in which a constraint is expressed: those of its first frame, whose rotation is `R`, or those of the world -/
def inAxes (rf : CFrame) (R : M3 K) (x : V3 K) : V3 K :=
  match rf with
  | .LOCAL => R.tr.mulVec x
  | .LOCAL_WORLD_ALIGNED => x

/-- a motion given in the axes of the first frame, in the axes of the constraint -/
def toAxes (rf : CFrame) (R : M3 K) (m : Motion K) : Motion K :=
  match rf with
  | .LOCAL => m
  | .LOCAL_WORLD_ALIGNED => m.rotate R

/-- the reference frame of a constraint -/
def CFrame.rf : CFrame → RF
  | .LOCAL => .LOCAL
  | .LOCAL_WORLD_ALIGNED => .LOCAL_WORLD_ALIGNED

end Pin
