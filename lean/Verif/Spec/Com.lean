import Verif.Spec.Kinematics

/-!
# Specification: masses and centres of mass
-/

namespace Pin
open Finset
variable {K : Type*} [CommRing K]

namespace Sys
variable (s : Sys K)
/-- mass of the subtree of `i` (of the whole model for `i = 0`) -/
noncomputable def subMass (i : ℕ) : K := ∑ b ∈ subtree s.par s.n i, (s.Y b).mass
/-- position of the centre of mass of body `b` in the world -/
def pcom (q : ℕ → K) (b : ℕ) : V3 K := (s.oM q b).actP (s.Y b).lever
/-- velocity of the centre of mass of body `b` in the world -/
def wcom (q v : ℕ → K) (b : ℕ) : V3 K :=
  (s.oM q b).rot.mulVec ((s.V q v b).lin + (s.V q v b).ang.cross (s.Y b).lever)
/-- acceleration of the centre of mass of body `b` in the world -/
def ucom (q v a : ℕ → K) (b : ℕ) : V3 K :=
  (s.oM q b).rot.mulVec ((s.A 0 q v a b).lin + (s.A 0 q v a b).ang.cross (s.Y b).lever
    + (s.V q v b).ang.cross ((s.V q v b).lin + (s.V q v b).ang.cross (s.Y b).lever))
/-- mass-weighted sum over a subtree -/
noncomputable def msum (x : ℕ → V3 K) (i : ℕ) : V3 K := ∑ b ∈ subtree s.par s.n i, (s.Y b).mass • x b
end Sys

namespace Sys
variable {K : Type*} [Field K] (s : Sys K)
/-- centre of mass of the bodies of the subtree of `i`, in the world (of all bodies for `i = 0`) -/
noncomputable def comPos (q : ℕ → K) (i : ℕ) : V3 K := (s.subMass i)⁻¹ • s.msum (s.pcom q) i
/-- its velocity: the mass-weighted mean of the velocities of the bodies' centres of mass -/
noncomputable def comVel (q v : ℕ → K) (i : ℕ) : V3 K := (s.subMass i)⁻¹ • s.msum (s.wcom q v) i
/-- its acceleration -/
noncomputable def comAcc (q v a : ℕ → K) (i : ℕ) : V3 K := (s.subMass i)⁻¹ • s.msum (s.ucom q v a) i
end Sys

end Pin
