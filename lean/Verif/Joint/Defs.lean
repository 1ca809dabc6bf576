import Verif.Algo.Data

/-!
# The joint types

Models `calc` of every joint of `include/pinocchio/multibody/joint/*.hpp`, as instances of `Joint`.

`sin`/`cos` enter through `Trig`: any pair of functions with `sin² + cos² = 1` (the floating point
`SINCOS`, `math/sincos.hpp`, is not modelled). Sparse storage (`TransformRevolute`, `MotionRevolute`,
`JointMotionSubspaceRevolute`, …) is converted to the dense value it stands for (`plain()`, `matrix()`).
-/

namespace Pin
open Finset
universe u

/-- `SINCOS`, `math/sincos.hpp:26-74` -/
class Trig (K : Type u) [CommRing K] where
  sin : K → K
  cos : K → K
  sq : ∀ x, sin x * sin x + cos x * cos x = 1

namespace V3
variable {K : Type u} [CommRing K]
/-- `Vector3::Unit(a)` -/
def axis (a : Fin 3) : V3 K := match a with | 0 => ⟨1, 0, 0⟩ | 1 => ⟨0, 1, 0⟩ | 2 => ⟨0, 0, 1⟩
/-- the three coordinates of a list -/
def ofSeq (x : ℕ → K) : V3 K := ⟨x 0, x 1, x 2⟩
end V3

section
variable {K : Type u} [CommRing K]

/-- `TransformRevoluteTpl::_setRotation`, `joint-revolute.hpp:202-232` -/
def rotAxis (a : Fin 3) (s c : K) : M3 K := match a with
  | 0 => ⟨1, 0, 0, 0, c, -s, 0, s, c⟩
  | 1 => ⟨c, 0, s, 0, 1, 0, -s, 0, c⟩
  | 2 => ⟨c, -s, 0, s, c, 0, 0, 0, 1⟩

/-- `toRotationMatrix(axis, cos, sin, res)`, `math/rotation.hpp:25-55` -/
def toRotationMatrix (u : V3 K) (c s : K) : M3 K :=
  let sa := s • u
  let ca := (1 - c) • u
  ⟨ca.x * u.x + c, ca.x * u.y - sa.z, ca.x * u.z + sa.y,
   ca.x * u.y + sa.z, ca.y * u.y + c, ca.y * u.z - sa.x,
   ca.x * u.z - sa.y, ca.y * u.z + sa.x, ca.z * u.z + c⟩

/-- Eigen `Quaternion::toRotationMatrix()`, coefficients `(x, y, z, w)` -/
def quatMat (x y z w : K) : M3 K :=
  let tx := 2 * x
  let ty := 2 * y
  let tz := 2 * z
  let twx := tx * w
  let twy := ty * w
  let twz := tz * w
  let txx := tx * x
  let txy := ty * x
  let txz := tz * x
  let tyy := ty * y
  let tyz := tz * y
  let tzz := tz * z
  ⟨1 - (tyy + tzz), txy - twz, txz + twy,
   txy + twz, 1 - (txx + tzz), tyz - twx,
   txz - twy, tyz + twx, 1 - (txx + tyy)⟩

/-- a motion subspace given by the list of its columns -/
def cols (l : List (Motion K)) : ℕ → Motion K := fun k => l.getD k 0

/-- `JointModelRevoluteTpl::calc`, `joint-revolute.hpp:791-820` -/
def jRevolute (a : Fin 3) [Trig K] : Joint K where
  nq := 1
  nv := 1
  M q := ⟨rotAxis a (Trig.sin (q 0)) (Trig.cos (q 0)), 0⟩
  S _ := cols [⟨0, V3.axis a⟩]
  v _ w := ⟨0, w 0 • V3.axis a⟩
  c _ _ := 0

/-- `JointModelRevoluteUnalignedTpl::calc`, `joint-revolute-unaligned.hpp:668-692` -/
def jRevoluteUnaligned (u : V3 K) [Trig K] : Joint K where
  nq := 1
  nv := 1
  M q := ⟨toRotationMatrix u (Trig.cos (q 0)) (Trig.sin (q 0)), 0⟩
  S _ := cols [⟨0, u⟩]
  v _ w := ⟨0, w 0 • u⟩
  c _ _ := 0
  setsV := false

/-- `JointModelRevoluteUnboundedTpl::calc`, `joint-revolute-unbounded.hpp:154-182`; `q = (cos, sin)` -/
def jRUB (a : Fin 3) : Joint K where
  nq := 2
  nv := 1
  M q := ⟨rotAxis a (q 1) (q 0), 0⟩
  S _ := cols [⟨0, V3.axis a⟩]
  v _ w := ⟨0, w 0 • V3.axis a⟩
  c _ _ := 0

/-- `JointModelRevoluteUnboundedUnalignedTpl::calc`, `joint-revolute-unbounded-unaligned.hpp:192-220` -/
def jRUBUnaligned (u : V3 K) : Joint K where
  nq := 2
  nv := 1
  M q := ⟨toRotationMatrix u (q 0) (q 1), 0⟩
  S _ := cols [⟨0, u⟩]
  v _ w := ⟨0, w 0 • u⟩
  c _ _ := 0

/-- `JointModelPrismaticTpl::calc`, `joint-prismatic.hpp:700-725` -/
def jPrismatic (a : Fin 3) : Joint K where
  nq := 1
  nv := 1
  M q := ⟨1, q 0 • V3.axis a⟩
  S _ := cols [⟨V3.axis a, 0⟩]
  v _ w := ⟨w 0 • V3.axis a, 0⟩
  c _ _ := 0

/-- `JointModelPrismaticUnalignedTpl::calc`, `joint-prismatic-unaligned.hpp:643-668` -/
def jPrismaticUnaligned (u : V3 K) : Joint K where
  nq := 1
  nv := 1
  M q := ⟨1, q 0 • u⟩
  S _ := cols [⟨u, 0⟩]
  v _ w := ⟨w 0 • u, 0⟩
  c _ _ := 0

/-- `JointModelTranslationTpl::calc`, `joint-translation.hpp:602-627` -/
def jTranslation : Joint K where
  nq := 3
  nv := 3
  M q := ⟨1, V3.ofSeq q⟩
  S _ := cols [⟨V3.axis 0, 0⟩, ⟨V3.axis 1, 0⟩, ⟨V3.axis 2, 0⟩]
  v _ w := ⟨V3.ofSeq w, 0⟩
  c _ _ := 0

/-- `JointModelPlanarTpl::calc`, `joint-planar.hpp:601-640`; `q = (x, y, cos, sin)`. `M.rotation()` and
`M.translation()` keep the entries of the identity they were created with outside the 2×2 corner and the
first two coordinates. -/
def jPlanar : Joint K where
  nq := 4
  nv := 3
  M q := ⟨⟨q 2, -q 3, 0, q 3, q 2, 0, 0, 0, 1⟩, ⟨q 0, q 1, 0⟩⟩
  S _ := cols [⟨V3.axis 0, 0⟩, ⟨V3.axis 1, 0⟩, ⟨0, V3.axis 2⟩]
  v _ w := ⟨⟨w 0, w 1, 0⟩, ⟨0, 0, w 2⟩⟩
  c _ _ := 0

/-- `JointModelSphericalTpl::calc`, `joint-spherical.hpp:525-572`; `q` is a quaternion `(x, y, z, w)` -/
def jSpherical : Joint K where
  nq := 4
  nv := 3
  M q := ⟨quatMat (q 0) (q 1) (q 2) (q 3), 0⟩
  S _ := cols [⟨0, V3.axis 0⟩, ⟨0, V3.axis 1⟩, ⟨0, V3.axis 2⟩]
  v _ w := ⟨0, V3.ofSeq w⟩
  c _ _ := 0

/-- `JointModelFreeFlyerTpl::calc`, `joint-free-flyer.hpp:333-374` -/
def jFreeFlyer : Joint K where
  nq := 7
  nv := 6
  M q := ⟨quatMat (q 3) (q 4) (q 5) (q 6), V3.ofSeq q⟩
  S _ := cols [⟨V3.axis 0, 0⟩, ⟨V3.axis 1, 0⟩, ⟨V3.axis 2, 0⟩, ⟨0, V3.axis 0⟩, ⟨0, V3.axis 1⟩, ⟨0, V3.axis 2⟩]
  v _ w := ⟨V3.ofSeq w, V3.ofSeq (seg w 3)⟩
  c _ _ := 0

/-- a 3×2 or 3×3 matrix times a vector, for `angularSubspace() * joint_v` -/
def angMul (l : List (V3 K)) (w : ℕ → K) : V3 K := ∑ k ∈ range l.length, w k • l.getD k 0

/-- `JointModelSphericalZYXTpl::calc`, `joint-spherical-ZYX.hpp:404-470` -/
def jSphericalZYX [Trig K] : Joint K where
  nq := 3
  nv := 3
  M q :=
    let s0 := Trig.sin (q 0); let c0 := Trig.cos (q 0)
    let s1 := Trig.sin (q 1); let c1 := Trig.cos (q 1)
    let s2 := Trig.sin (q 2); let c2 := Trig.cos (q 2)
    ⟨⟨c0 * c1, c0 * s1 * s2 - s0 * c2, c0 * s1 * c2 + s0 * s2, s0 * c1,
      s0 * s1 * s2 + c0 * c2, s0 * s1 * c2 - c0 * s2, -s1, c1 * s2, c1 * c2⟩, 0⟩
  S q :=
    let s1 := Trig.sin (q 1); let c1 := Trig.cos (q 1)
    let s2 := Trig.sin (q 2); let c2 := Trig.cos (q 2)
    cols [⟨0, ⟨-s1, c1 * s2, c1 * c2⟩⟩, ⟨0, ⟨0, c2, -s2⟩⟩, ⟨0, ⟨1, 0, 0⟩⟩]
  v q w :=
    let s1 := Trig.sin (q 1); let c1 := Trig.cos (q 1)
    let s2 := Trig.sin (q 2); let c2 := Trig.cos (q 2)
    ⟨0, angMul [⟨-s1, c1 * s2, c1 * c2⟩, ⟨0, c2, -s2⟩, ⟨1, 0, 0⟩] w⟩
  c q w :=
    let s1 := Trig.sin (q 1); let c1 := Trig.cos (q 1)
    let s2 := Trig.sin (q 2); let c2 := Trig.cos (q 2)
    ⟨0, ⟨-c1 * w 0 * w 1,
      -s1 * s2 * w 0 * w 1 + c1 * c2 * w 0 * w 2 - s2 * w 1 * w 2,
      -s1 * c2 * w 0 * w 1 - c1 * s2 * w 0 * w 2 - c2 * w 1 * w 2⟩⟩

/-- `JointModelUniversalTpl::calc`, `joint-universal.hpp:478-571` -/
def jUniversal (a1 a2 : V3 K) [Trig K] : Joint K where
  nq := 2
  nv := 2
  M q := ⟨toRotationMatrix a1 (Trig.cos (q 0)) (Trig.sin (q 0))
    * toRotationMatrix a2 (Trig.cos (q 1)) (Trig.sin (q 1)), 0⟩
  S q :=
    let r := toRotationMatrix a2 (Trig.cos (q 1)) (Trig.sin (q 1))
    cols [⟨0, ⟨r.m00 * a1.x + r.m10 * a1.y + r.m20 * a1.z,
      r.m01 * a1.x + r.m11 * a1.y + r.m21 * a1.z,
      r.m02 * a1.x + r.m12 * a1.y + r.m22 * a1.z⟩⟩, ⟨0, a2⟩]
  v q w :=
    let r := toRotationMatrix a2 (Trig.cos (q 1)) (Trig.sin (q 1))
    ⟨0, angMul [⟨r.m00 * a1.x + r.m10 * a1.y + r.m20 * a1.z,
      r.m01 * a1.x + r.m11 * a1.y + r.m21 * a1.z,
      r.m02 * a1.x + r.m12 * a1.y + r.m22 * a1.z⟩, a2] w⟩
  c q w :=
    let s1 := Trig.sin (q 1); let c1 := Trig.cos (q 1)
    ⟨0, ⟨((-s1 + a2.x * a2.x * s1) * a1.x + (a2.x * a2.y * s1 + a2.z * c1) * a1.y
        + (a2.x * a2.z * s1 - a2.y * c1) * a1.z) * w 1 * w 0,
      ((a2.x * a2.y * s1 - a2.z * c1) * a1.x + (-s1 + a2.y * a2.y * s1) * a1.y
        + (a2.y * a2.z * s1 + a2.x * c1) * a1.z) * w 1 * w 0,
      ((a2.z * a2.x * s1 + a2.y * c1) * a1.x + (a2.y * a2.z * s1 - a2.x * c1) * a1.y
        + (-s1 + a2.z * a2.z * s1) * a1.z) * w 1 * w 0⟩⟩

/-- `JointModelHelicalTpl::calc`, `joint-helical.hpp:873-904` -/
def jHelical (a : Fin 3) (h : K) [Trig K] : Joint K where
  nq := 1
  nv := 1
  M q := ⟨rotAxis a (Trig.sin (q 0)) (Trig.cos (q 0)), (q 0 * h) • V3.axis a⟩
  S _ := cols [⟨h • V3.axis a, V3.axis a⟩]
  v _ w := ⟨(w 0 * h) • V3.axis a, w 0 • V3.axis a⟩
  c _ _ := 0

/-- `JointModelHelicalUnalignedTpl::calc`, `joint-helical-unaligned.hpp:701-731` -/
def jHelicalUnaligned (u : V3 K) (h : K) [Trig K] : Joint K where
  nq := 1
  nv := 1
  M q := ⟨toRotationMatrix u (Trig.cos (q 0)) (Trig.sin (q 0)), (q 0 * h) • u⟩
  S _ := cols [⟨h • u, u⟩]
  v _ w := ⟨(w 0 * h) • u, w 0 • u⟩
  c _ _ := 0
  setsV := false

/-! ## Composite joints -/

/-- state of the backward loop of `JointModelCompositeTpl::calc`: `iMlast` of the successor (`none` before
the first step), the columns of `S` written so far, `v` and `c` -/
structure CompAcc (K : Type u) where
  iM : SE3 K
  S : ℕ → Motion K
  v : Motion K
  c : Motion K

/-- one element of a composite joint: its placement in its predecessor, its model, and the offsets of its
segments in those of the composite (`m_idx_q[i] - m_idx_q[0]`, `m_idx_v[i] - m_idx_v[0]`) -/
structure CompElt (K : Type u) where
  pl : SE3 K
  jt : Joint K
  oq : ℕ
  ov : ℕ

/-- `JointCompositeCalcFirstOrderStep::algo`, `joint-composite.hxx:104-141` (the zero order step, lines
31-56, computes the same `iMlast` and `S`). The elements are visited last to first; the last one takes the
branch `succ == joints.size()`. -/
def compStep (q w : ℕ → K) (e : CompElt K) (acc : Option (CompAcc K)) : CompAcc K :=
  let qs := seg q e.oq
  let ws := seg w e.ov
  let pj := e.pl * e.jt.M qs
  match acc with
  | none => ⟨pj, putSeg (fun _ => 0) e.ov e.jt.nv (e.jt.S qs), e.jt.v qs ws, e.jt.c qs ws⟩
  | some a =>
    let vt := a.iM.actInv (e.jt.v qs ws)
    let v := a.v + vt
    ⟨pj * a.iM, putSeg a.S e.ov e.jt.nv (fun k => a.iM.actInv (e.jt.S qs k)), v,
      a.c - v.cross vt + a.iM.actInv (e.jt.c qs ws)⟩

/-- the loop `for (i = joints.size()-1; i >= 0; --i)`, `joint-composite.hxx:158-163` -/
def compLoop (q w : ℕ → K) : List (CompElt K) → Option (CompAcc K)
  | [] => none
  | e :: l => some (compStep q w e (compLoop q w l))

/-- offsets as computed by `updateJointIndexes`, `joint-composite.hpp:644-672` -/
def compElts : List (SE3 K × Joint K) → ℕ → ℕ → List (CompElt K)
  | [], _, _ => []
  | (p, J) :: l, oq, ov => ⟨p, J, oq, ov⟩ :: compElts l (oq + J.nq) (ov + J.nv)

/-- `JointModelCompositeTpl`, `joint-composite.hpp` / `joint-composite.hxx` -/
def jComposite (l : List (SE3 K × Joint K)) : Joint K where
  nq := (l.map fun p => p.2.nq).sum
  nv := (l.map fun p => p.2.nv).sum
  M q := ((compLoop q 0 (compElts l 0 0)).map (·.iM)).getD 1
  S q := ((compLoop q 0 (compElts l 0 0)).map (·.S)).getD (fun _ => 0)
  v q w := ((compLoop q w (compElts l 0 0)).map (·.v)).getD 0
  c q w := ((compLoop q w (compElts l 0 0)).map (·.c)).getD 0

/-! ## Mimic joints -/

/-- `JointModelMimicTpl`, `joint-mimic.hpp:559-760`. `J` is the mimicking joint, `S0` the motion subspace of
the joint data returned by its `createData()`: `JointDataMimicTpl` copies it once (`joint-mimic.hpp:391-394`)
and `calc` never refreshes it. `aff` is `ConfigVectorAffineTransform` of the joint type. -/
def jMimic (J : Joint K) (S0 : ℕ → Motion K) (aff : K → K → (ℕ → K) → ℕ → K) (scaling offset : K) :
    Joint K where
  nq := J.nq
  nv := J.nv
  M q := J.M (aff scaling offset q)
  S _ := fun k => scaling • S0 k
  v q w := J.v (aff scaling offset q) (fun k => scaling * w k)
  c q w := J.c (aff scaling offset q) (fun k => scaling * w k)

/-- `LinearAffineTransform::run`, `joint-common-operations.hpp:50-64` -/
def linearAffine (scaling offset : K) (q : ℕ → K) : ℕ → K := fun k => scaling * q k + offset

/-- `JointDataHelicalTpl()` (returned by `createData`): `S((Scalar)0)`, i.e. pitch zero,
`joint-helical.hpp:803-814,848-851` -/
def helicalS0 (a : Fin 3) : ℕ → Motion K := cols [⟨(0 : K) • V3.axis a, V3.axis a⟩]

end
end Pin
