import Mathlib.Data.Set.Basic
import Verif.Spatial.Vec

/-!
# Specification: friction cone, dual cone, closest point, Coulomb's law
-/

namespace Pin
universe u
variable {K : Type u} [Field K] [LinearOrder K]

/-- Coulomb's cone: a compressive normal force, a tangential force of norm at most `mu` times it -/
def Coulomb (mu : K) : Set (V3 K) := {f | 0 ≤ f.z ∧ f.x * f.x + f.y * f.y ≤ (mu * f.z) * (mu * f.z)}

/-- the dual of a set: the vectors that make an acute angle with all its elements -/
def DualOf (C : Set (V3 K)) : Set (V3 K) := {v | ∀ f ∈ C, 0 ≤ f.dot v}

/-- `p` is the point of `C` closest to `x` (and the only one) -/
def IsClosest (C : Set (V3 K)) (x p : V3 K) : Prop := p ∈ C ∧ ∀ y ∈ C, y ≠ p → (x - p).sqNorm < (x - y).sqNorm

/-- squared distance with weights -/
def wsq (R x : V3 K) : K := R.x * (x.x * x.x) + R.y * (x.y * x.y) + R.z * (x.z * x.z)

/-- `p` is the point of `C` closest to `x` for the weights `R` -/
def IsClosestW (R : V3 K) (C : Set (V3 K)) (x p : V3 K) : Prop := p ∈ C ∧ ∀ y ∈ C, y ≠ p → wsq R (x - p) < wsq R (x - y)

/-- Signorini's condition and Coulomb's law between a contact force `f` and a contact velocity `v`: the force is in the
cone; the contact does not penetrate, and separates only if there is no force; a contact that slides (tangential speed `t`)
has its friction force opposite to the motion and at the limit of the cone -/
structure CoulombLaw (mu : K) (f v : V3 K) : Prop where
  force : f ∈ Coulomb mu
  noPenetration : 0 ≤ v.z
  separates : f.z = 0 ∨ v.z = 0
  friction : ∀ t, 0 ≤ t → t * t = v.x * v.x + v.y * v.y → t * f.x = -(mu * f.z) * v.x ∧ t * f.y = -(mu * f.z) * v.y

end Pin
