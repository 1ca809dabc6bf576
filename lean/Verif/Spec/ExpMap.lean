import Verif.Spatial.SE3
import Mathlib.Analysis.Calculus.Deriv.Basic
import Mathlib.Analysis.Calculus.Deriv.Mul

/-!
# The exponential maps of SO(3) and SE(3), and derivatives of curves

The specification of the exponential is its differential equation: `exp w` is the rotation reached at time `1`,
starting from the identity, by a body turning with the constant body angular velocity `w`; likewise for poses.
-/

namespace Pin
namespace Spec

/-- `f'` is the derivative at `t` of the curve of vectors `f` -/
structure VDeriv (f : ℝ → V3 ℝ) (f' : V3 ℝ) (t : ℝ) : Prop where
  x : HasDerivAt (fun s => (f s).x) f'.x t
  y : HasDerivAt (fun s => (f s).y) f'.y t
  z : HasDerivAt (fun s => (f s).z) f'.z t

/-- `f'` is the derivative at `t` of the curve of matrices `f` -/
structure MDeriv (f : ℝ → M3 ℝ) (f' : M3 ℝ) (t : ℝ) : Prop where
  m00 : HasDerivAt (fun s => (f s).m00) f'.m00 t
  m01 : HasDerivAt (fun s => (f s).m01) f'.m01 t
  m02 : HasDerivAt (fun s => (f s).m02) f'.m02 t
  m10 : HasDerivAt (fun s => (f s).m10) f'.m10 t
  m11 : HasDerivAt (fun s => (f s).m11) f'.m11 t
  m12 : HasDerivAt (fun s => (f s).m12) f'.m12 t
  m20 : HasDerivAt (fun s => (f s).m20) f'.m20 t
  m21 : HasDerivAt (fun s => (f s).m21) f'.m21 t
  m22 : HasDerivAt (fun s => (f s).m22) f'.m22 t

/-- at time `t` the moving orientation `R` turns with angular velocity `w`, expressed in the body:
`R' = R [w]×` -/
def AngVel (R : ℝ → M3 ℝ) (w : V3 ℝ) (t : ℝ) : Prop := MDeriv R (R t * M3.skew w) t

/-- at time `t` the moving pose `T` has the spatial velocity `ν`, expressed in the body -/
structure BodyVel (T : ℝ → SE3 ℝ) (ν : Motion ℝ) (t : ℝ) : Prop where
  ang : AngVel (fun s => (T s).rot) ν.ang t
  lin : VDeriv (fun s => (T s).trans) ((T t).rot.mulVec ν.lin) t

/-- `R` is the exponential of `w` -/
def IsExp3 (w : V3 ℝ) (R : M3 ℝ) : Prop :=
  ∃ F : ℝ → M3 ℝ, F 0 = 1 ∧ F 1 = R ∧ ∀ t, AngVel F w t

/-- `M` is the exponential of `ν` -/
def IsExp6 (ν : Motion ℝ) (M : SE3 ℝ) : Prop :=
  ∃ F : ℝ → SE3 ℝ, F 0 = 1 ∧ F 1 = M ∧ ∀ t, BodyVel F ν t

end Spec
end Pin
