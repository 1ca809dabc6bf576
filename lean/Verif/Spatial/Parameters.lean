import Verif.Spatial.InertiaLemmas
import Mathlib.Analysis.SpecialFunctions.ExpDeriv

/-! # Inertial parametrisations, `spatial/inertia.hpp:533-600` and `943-1275` -/

namespace Pin
universe u

/-- a vector of ten coefficients -/
@[ext] structure V10 (K : Type u) where
  p0 : K
  p1 : K
  p2 : K
  p3 : K
  p4 : K
  p5 : K
  p6 : K
  p7 : K
  p8 : K
  p9 : K
  deriving DecidableEq

/-- `v[i]` -/
def V10.get {K : Type u} (v : V10 K) : Fin 10 → K
  | 0 => v.p0 | 1 => v.p1 | 2 => v.p2 | 3 => v.p3 | 4 => v.p4
  | 5 => v.p5 | 6 => v.p6 | 7 => v.p7 | 8 => v.p8 | 9 => v.p9

/-- `PseudoInertiaTpl`, `inertia.hpp:943-966` -/
@[ext] structure PseudoInertia (K : Type u) where
  mass : K
  h : V3 K
  sigma : M3 K
  deriving DecidableEq

section field
variable {K : Type u} [Field K]

/-- `toDynamicParameters`, `inertia.hpp:541-550` -/
def Inertia.toDyn (I : Inertia K) : V10 K :=
  let mc := I.mass • I.lever
  let s := I.rotI.subAlphaSkewSquare I.mass I.lever
  ⟨I.mass, mc.x, mc.y, mc.z, s.xx, s.xy, s.yy, s.xz, s.yz, s.zz⟩

/-- `FromDynamicParameters`, `inertia.hpp:560-571`; a division by a zero mass yields a non-number in the code, zero
here: the theorems assume a non-zero mass. -/
def Inertia.ofDyn (p : V10 K) : Inertia K :=
  let lever : V3 K := ⟨p.p1 / p.p0, p.p2 / p.p0, p.p3 / p.p0⟩
  ⟨p.p0, lever, (⟨p.p4, p.p5, p.p6, p.p7, p.p8, p.p9⟩ : Sym3 K) + Sym3.alphaSkewSquare p.p0 lever⟩

namespace PseudoInertia

/-- `FromDynamicParameters`, `inertia.hpp:999-1015` -/
def ofDyn (p : V10 K) : PseudoInertia K :=
  let tr := p.p4 + p.p6 + p.p9
  ⟨p.p0, ⟨p.p1, p.p2, p.p3⟩,
    ⟨1 / 2 * tr - p.p4, -p.p5, -p.p7, -p.p5, 1 / 2 * tr - p.p6, -p.p8, -p.p7, -p.p8, 1 / 2 * tr - p.p9⟩⟩

/-- `toDynamicParameters`, `inertia.hpp:1021-1036`: reads the upper triangle of `sigma` -/
def toDyn (P : PseudoInertia K) : V10 K :=
  let tr := P.sigma.m00 + P.sigma.m11 + P.sigma.m22
  ⟨P.mass, P.h.x, P.h.y, P.h.z, tr - P.sigma.m00, -P.sigma.m01, tr - P.sigma.m11, -P.sigma.m02, -P.sigma.m12,
    tr - P.sigma.m22⟩

/-- `FromInertia`, `inertia.hpp:1043-1047` -/
def ofInertia (I : Inertia K) : PseudoInertia K := ofDyn I.toDyn

/-- `toInertia`, `inertia.hpp:1053-1057` -/
def toInertia (P : PseudoInertia K) : Inertia K := Inertia.ofDyn P.toDyn

/-- `toMatrix`, `inertia.hpp:971-979`, as the quadratic form `xᵀ P x` of a vector `(x, t)` of size 4 -/
def form (P : PseudoInertia K) (x : V3 K) (t : K) : K :=
  x.dot (P.sigma.mulVec x) + t * P.h.dot x + t * P.h.dot x + P.mass * t * t

end PseudoInertia
end field

/-! ## log-Cholesky parameters, over the reals -/

/-- `LogCholeskyParametersTpl`, `inertia.hpp:1104-1122`: parameters `alpha, d1, d2, d3, s12, s23, s13, t1, t2, t3` -/
structure LogCholesky where
  p : V10 ℝ

namespace LogCholesky
open Real

/-- `toDynamicParameters`, `inertia.hpp:1126-1165` -/
noncomputable def toDyn (l : LogCholesky) : V10 ℝ :=
  let al := l.p.p0
  let d1 := l.p.p1
  let d2 := l.p.p2
  let d3 := l.p.p3
  let s12 := l.p.p4
  let s23 := l.p.p5
  let s13 := l.p.p6
  let t1 := l.p.p7
  let t2 := l.p.p8
  let t3 := l.p.p9
  let e1 := exp d1
  let e2 := exp d2
  let e3 := exp d3
  let k := exp (2 * al)
  ⟨1 * k, t1 * k, t2 * k, t3 * k,
   (s23 ^ 2 + t2 ^ 2 + t3 ^ 2 + e2 ^ 2 + e3 ^ 2) * k,
   (-s12 * e2 - s13 * s23 - t1 * t2) * k,
   (s12 ^ 2 + s13 ^ 2 + t1 ^ 2 + t3 ^ 2 + e1 ^ 2 + e3 ^ 2) * k,
   (-s13 * e3 - t1 * t3) * k,
   (-s23 * e3 - t2 * t3) * k,
   (s12 ^ 2 + s13 ^ 2 + s23 ^ 2 + t1 ^ 2 + t2 ^ 2 + e1 ^ 2 + e2 ^ 2) * k⟩

/-- `toPseudoInertia`, `inertia.hpp:1171-1175` -/
noncomputable def toPseudo (l : LogCholesky) : PseudoInertia ℝ := PseudoInertia.ofDyn l.toDyn

/-- `toInertia`, `inertia.hpp:1181-1185` -/
noncomputable def toInertia (l : LogCholesky) : Inertia ℝ := Inertia.ofDyn l.toDyn

/-- `calculateJacobian`, `inertia.hpp:1191-1275`, row by row; entries not assigned in the code are zero -/
noncomputable def jacobian (l : LogCholesky) : Fin 10 → V10 ℝ :=
  let al := l.p.p0
  let d1 := l.p.p1
  let d2 := l.p.p2
  let d3 := l.p.p3
  let s12 := l.p.p4
  let s23 := l.p.p5
  let s13 := l.p.p6
  let t1 := l.p.p7
  let t2 := l.p.p8
  let t3 := l.p.p9
  let k := exp (2 * al)
  let e11 := exp (2 * d1)
  let e22 := exp (2 * d2)
  let e33 := exp (2 * d3)
  let e2 := exp d2
  let e3 := exp d3
  fun r => match r with
  | 0 => ⟨2 * k, 0, 0, 0, 0, 0, 0, 0, 0, 0⟩
  | 1 => ⟨2 * t1 * k, 0, 0, 0, 0, 0, 0, k, 0, 0⟩
  | 2 => ⟨2 * t2 * k, 0, 0, 0, 0, 0, 0, 0, k, 0⟩
  | 3 => ⟨2 * t3 * k, 0, 0, 0, 0, 0, 0, 0, 0, k⟩
  | 4 => ⟨2 * (s23 ^ 2 + t2 ^ 2 + t3 ^ 2 + e22 + e33) * k, 0, 2 * k * e22, 2 * k * e33, 0, 2 * s23 * k, 0, 0, 2 * t2 * k, 2 * t3 * k⟩
  | 5 => ⟨-2 * (s12 * e2 + s13 * s23 + t1 * t2) * k, 0, -s12 * k * e2, 0, -k * e2, -s13 * k, -s23 * k, -t2 * k, -t1 * k, 0⟩
  | 6 => ⟨2 * (s12 ^ 2 + s13 ^ 2 + t1 ^ 2 + t3 ^ 2 + e11 + e33) * k, 2 * k * e11, 0, 2 * k * e33, 2 * s12 * k, 0, 2 * s13 * k, 2 * t1 * k, 0, 2 * t3 * k⟩
  | 7 => ⟨-2 * (s13 * e3 + t1 * t3) * k, 0, 0, -s13 * k * e3, 0, 0, -k * e3, -t3 * k, 0, -t1 * k⟩
  | 8 => ⟨-2 * (s23 * e3 + t2 * t3) * k, 0, 0, -s23 * k * e3, 0, -k * e3, 0, 0, -t3 * k, -t2 * k⟩
  | 9 => ⟨2 * (s12 ^ 2 + s13 ^ 2 + s23 ^ 2 + t1 ^ 2 + t2 ^ 2 + e11 + e22) * k, 2 * k * e11, 2 * k * e22, 0, 2 * s12 * k, 2 * s23 * k, 2 * s13 * k, 2 * t1 * k, 2 * t2 * k, 0⟩

end LogCholesky
end Pin
