import Verif.Spec.ExpMap
import Verif.LieGroup.SlotLemmas

/-!
# Velocities of configurations

A configuration of a joint describes a pose; a tangent vector describes a body velocity of this pose. A curve of
configurations has the velocity `δ` when its pose has the corresponding body velocity.
-/

namespace Pin
namespace Spec
open Lie

/-- the pose in the plane with rotation `(c, s)` and translation `(x, y)` -/
def planar (c s x y : ℝ) : SE3 ℝ := ⟨⟨c, -s, 0, s, c, 0, 0, 0, 1⟩, ⟨x, y, 0⟩⟩

/-- the pose described by a configuration -/
def poseOf (g : LG) (q : ℕ → ℝ) : SE3 ℝ := match g with
  | .vec _ => 1
  | .so2 => planar (q 0) (q 1) 0 0
  | .so3 => ⟨(quatAt q 0).toMat, 0⟩
  | .se2 => planar (q 2) (q 3) (q 0) (q 1)
  | .se3 => ⟨(quatAt q 3).toMat, vecAt q 0⟩

/-- the body velocity described by a tangent vector -/
def twistOf (g : LG) (v : ℕ → ℝ) : Motion ℝ := match g with
  | .vec _ => 0
  | .so2 => ⟨0, ⟨0, 0, v 0⟩⟩
  | .so3 => ⟨0, vecAt v 0⟩
  | .se2 => ⟨⟨v 0, v 1, 0⟩, ⟨0, 0, v 2⟩⟩
  | .se3 => ⟨vecAt v 0, vecAt v 3⟩

/-- at time `t` the moving configuration `q` has the velocity `δ` -/
def ConfVel (g : LG) (q : ℝ → ℕ → ℝ) (δ : ℕ → ℝ) (t : ℝ) : Prop := match g with
  | .vec n => ∀ k, k < n → HasDerivAt (fun s => q s k) (δ k) t
  | g => BodyVel (fun s => poseOf g (q s)) (twistOf g δ) t

/-- `out` is reached from `q` by moving with the constant velocity `v` during a unit of time -/
def IsStep (g : LG) (q v out : ℕ → ℝ) : Prop := match g with
  | .vec n => ∀ k, k < n → out k = q k + v k
  | g => ∃ E, IsExp6 (twistOf g v) E ∧ poseOf g out = poseOf g q * E

/-- `d` is the difference of `q1` and `q0`: the velocity, turning by less than half a turn, that leads from `q0`
to `q1` -/
structure IsDiff (g : LG) (q0 q1 d : ℕ → ℝ) : Prop where
  step : IsStep g q0 d q1
  lt : (twistOf g d).ang.sqNorm < Real.pi ^ 2

/-- product of the `n × n` matrix `J` and the vector `x` -/
def apply (n : ℕ) (J : ℕ → ℕ → ℝ) (x : ℕ → ℝ) (i : ℕ) : ℝ := ∑ j ∈ Finset.range n, J i j * x j

/-- every joint of the model has the velocity given by its segment of `δ` -/
def ModelVel (m : Model ℝ LJ) (q : ℝ → ℕ → ℝ) (δ : ℕ → ℝ) (t : ℝ) : Prop :=
  ∀ s ∈ slotsOf m, ConfVel s.g (fun τ => seg (q τ) s.iq) (seg δ s.iv) t

/-- every joint of the model makes the step given by its segment of `v` -/
def ModelStep (m : Model ℝ LJ) (q v out : ℕ → ℝ) : Prop :=
  ∀ s ∈ slotsOf m, IsStep s.g (seg q s.iq) (seg v s.iv) (seg out s.iq)

/-- every joint of the model has the difference given by its segment of `d` -/
def ModelDiff (m : Model ℝ LJ) (q0 q1 d : ℕ → ℝ) : Prop :=
  ∀ s ∈ slotsOf m, IsDiff s.g (seg q0 s.iq) (seg q1 s.iq) (seg d s.iv)

end Spec
end Pin
