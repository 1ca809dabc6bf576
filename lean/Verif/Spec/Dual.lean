import Mathlib.Algebra.DualNumber
import Verif.Joint.Defs

/-!
# Specification: first-order variations

Derivatives along a trajectory are expressed with Mathlib's dual numbers `K[ε]`, `ε² = 0`: evaluating the
(polynomial and trigonometric) code of a function on `q + ε q̇` yields the value of the function and, as
coefficient of `ε`, its derivative along `q̇`. The only analytic fact used is the one written in the
instance `Trig K[ε]`: `sin' = cos`, `cos' = -sin`.
-/

namespace Pin
open Finset DualNumber TrivSqZeroExt
universe u

section map
variable {K L : Type*}
def V3.map (f : K → L) (a : V3 K) : V3 L := ⟨f a.x, f a.y, f a.z⟩
def M3.map (f : K → L) (a : M3 K) : M3 L :=
  ⟨f a.m00, f a.m01, f a.m02, f a.m10, f a.m11, f a.m12, f a.m20, f a.m21, f a.m22⟩
def Motion.map (f : K → L) (a : Motion K) : Motion L := ⟨a.lin.map f, a.ang.map f⟩
def SE3.map (f : K → L) (a : SE3 K) : SE3 L := ⟨a.rot.map f, a.trans.map f⟩
end map

/-- `sin (a + ε b) = sin a + ε b cos a` and `cos (a + ε b) = cos a - ε b sin a` -/
instance {K : Type u} [CommRing K] [Trig K] : Trig K[ε] where
  sin x := inl (Trig.sin x.fst) + inr (x.snd * Trig.cos x.fst)
  cos x := inl (Trig.cos x.fst) + inr (-(x.snd * Trig.sin x.fst))
  sq x := by
    ext
    · simpa using Trig.sq x.fst
    · simp; ring

variable {K : Type u} [CommRing K]

/-- `q + ε q̇` -/
def perturb (q dq : ℕ → K) : ℕ → K[ε] := fun k => inl (q k) + inr (dq k)

/-- `M` varies with body velocity `ν`: `Ṙ = R [ω]×`, `ṗ = R v`. -/
structure SE3.Moves (Mε : SE3 K[ε]) (M : SE3 K) (ν : Motion K) : Prop where
  base : Mε.map fst = M
  rot : Mε.rot.map snd = M.rot * M3.skew ν.ang
  trans : Mε.trans.map snd = M.rot.mulVec ν.lin

/-- What a joint must satisfy along a motion: with `Jε` the same joint code over `K[ε]`, `q` a configuration
and `dq` the derivative of the configuration when the joint velocity is `w`,
the transform moves with body velocity `v = S w`, and the bias is `c = Ṡ w`. -/
structure Joint.Kinematic (J : Joint K) (Jε : Joint K[ε]) (q w dq : ℕ → K) : Prop where
  moves : (Jε.M (perturb q dq)).Moves (J.M q) (comb (J.S q) J.nv w)
  base : ∀ k, k < J.nv → (Jε.S (perturb q dq) k).map fst = J.S q k
  bias : ∑ k ∈ range J.nv, w k • (Jε.S (perturb q dq) k).map snd = J.c q w

/-- derivative of a configuration `(cos, sin)` rotating at rate `w` -/
def circleDot (q w : ℕ → K) : ℕ → K
  | 0 => - (q 1 * w 0)
  | 1 => q 0 * w 0
  | _ => 0

/-- derivative of a planar configuration `(x, y, cos, sin)` moving with body velocity `(vx, vy, ω)` -/
def planarDot (q w : ℕ → K) : ℕ → K
  | 0 => q 2 * w 0 - q 3 * w 1
  | 1 => q 3 * w 0 + q 2 * w 1
  | 2 => - (q 3 * w 2)
  | 3 => q 2 * w 2
  | _ => 0

/-- `dq` is the derivative of the quaternion `q = (x, y, z, w)` rotating with body angular velocity `ω`:
`2 dq = q ⊗ (ω, 0)` -/
structure QuatDot (q dq : ℕ → K) (ω : V3 K) : Prop where
  x : 2 * dq 0 = q 3 * ω.x + (q 1 * ω.z - q 2 * ω.y)
  y : 2 * dq 1 = q 3 * ω.y + (q 2 * ω.x - q 0 * ω.z)
  z : 2 * dq 2 = q 3 * ω.z + (q 0 * ω.y - q 1 * ω.x)
  w : 2 * dq 3 = - (q 0 * ω.x + q 1 * ω.y + q 2 * ω.z)

end Pin
