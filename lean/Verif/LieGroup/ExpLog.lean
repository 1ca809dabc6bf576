import Verif.LieGroup.Defs
import Verif.Spatial.InertiaLemmas

/-!
# Matrix exponentials, logarithms and their Jacobians

Models `spatial/explog.hpp`, `spatial/log.hxx`, `quaternion::Jexp3CoeffWise` of `spatial/explog-quaternion.hpp`
and the derivative functions of `multibody/liegroup/*.hpp`. Scalars are real numbers, `ε` is
`Eigen::NumTraits<Scalar>::epsilon()`, as in `Verif.LieGroup.Defs`. A division by zero gives the value `0` of
real division here; the code gets an infinity or a NaN: theorems exclude these points, or quantify over the
value of the quotient.
-/

namespace Pin
namespace Lie

/-- `AssignmentOperatorType`, `multibody/fwd.hpp` -/
inductive Op where
  | setto
  | addto
  | rmto
  deriving DecidableEq

/-- what `switch (op)` does to an entry `x` of the output, the value being `y` -/
def Op.ap (op : Op) (x y : ℝ) : ℝ := match op with
  | .setto => y
  | .addto => x + y
  | .rmto => x - y

/-- `ArgumentPosition`, `multibody/fwd.hpp` (`ARG0`, `ARG1`) -/
inductive Arg where
  | arg0
  | arg1
  deriving DecidableEq

/-- Eigen `a * b.transpose()` -/
def outer (a b : V3 ℝ) : M3 ℝ :=
  ⟨a.x * b.x, a.x * b.y, a.x * b.z, a.y * b.x, a.y * b.y, a.y * b.z, a.z * b.x, a.z * b.y, a.z * b.z⟩

/-- `M.diagonal().array() += d` -/
def addDiag (M : M3 ℝ) (d : ℝ) : M3 ℝ :=
  ⟨M.m00 + d, M.m01, M.m02, M.m10, M.m11 + d, M.m12, M.m20, M.m21, M.m22 + d⟩

/-- `addSkew(v, M)`, `spatial/skew.hpp:66-81` -/
def addSkew (v : V3 ℝ) (M : M3 ℝ) : M3 ℝ :=
  ⟨M.m00, M.m01 - v.z, M.m02 + v.y, M.m10 + v.z, M.m11, M.m12 - v.x, M.m20 - v.y, M.m21 + v.x, M.m22⟩

/-- Eigen `norm()` -/
noncomputable def norm3 (v : V3 ℝ) : ℝ := Real.sqrt v.sqNorm

/-! ## rotations -/

/-- `exp3(v)`, `spatial/explog.hpp:33-71` -/
noncomputable def mexp3 (ε : ℝ) (v : V3 ℝ) : M3 ℝ :=
  let t2 := v.sqNorm + ε * ε
  let t := Real.sqrt t2
  let ct := Real.cos t
  let st := Real.sin t
  let aVxVx := if t > prec ε 3 then (1 - ct) / t2 else 1 / 2 - t2 / 24
  let aVx := if t > prec ε 3 then st / t else 1 - t2 / 6
  let res := aVxVx • outer v v
  let res := addSkew (aVx • v) res
  let ct := if t > prec ε 3 then ct else 1 - t2 / 2
  addDiag res ct

/-- the coefficients `a`, `b`, `c` of `Jexp3`, `spatial/explog.hpp:126-146` -/
noncomputable def jexp3A (ε : ℝ) (r : V3 ℝ) : ℝ :=
  let n := norm3 r
  if n < prec ε 3 then 1 - r.sqNorm / 6 else Real.sin n * (1 / n)
/-- see `jexp3A` -/
noncomputable def jexp3B (ε : ℝ) (r : V3 ℝ) : ℝ :=
  let n := norm3 r
  if n < prec ε 3 then -1 / 2 - r.sqNorm / 24 else -(1 - Real.cos n) * (1 / n * (1 / n))
/-- see `jexp3A` -/
noncomputable def jexp3C (ε : ℝ) (r : V3 ℝ) : ℝ :=
  let n := norm3 r
  if n < prec ε 3 then 1 / 6 - r.sqNorm / 120 else 1 / n * (1 / n) * (1 - jexp3A ε r)

/-- `Jexp3<op>(r, Jexp)`, `spatial/explog.hpp:117-184`: `SETTO` writes the diagonal and the off-diagonal
entries and adds `c r rᵀ`; `ADDTO` and `RMTO` add or subtract the same three parts to the previous content -/
noncomputable def Jexp3Op (op : Op) (ε : ℝ) (r : V3 ℝ) (J : M3 ℝ) : M3 ℝ :=
  let a := jexp3A ε r
  let b := jexp3B ε r
  let c := jexp3C ε r
  match op with
  | .setto =>
    let m01 := -b * r.z
    let m02 := b * r.y
    let m12 := -b * r.x
    (⟨a, m01, m02, -m01, a, m12, -m02, -m12, a⟩ : M3 ℝ) + outer (c • r) r
  | .addto =>
    (⟨J.m00 + a, J.m01 + -b * r.z, J.m02 + b * r.y, J.m10 + b * r.z, J.m11 + a, J.m12 + -b * r.x,
      J.m20 + -b * r.y, J.m21 + b * r.x, J.m22 + a⟩ : M3 ℝ) + outer (c • r) r
  | .rmto =>
    (⟨J.m00 - a, J.m01 - -b * r.z, J.m02 - b * r.y, J.m10 - b * r.z, J.m11 - a, J.m12 - -b * r.x,
      J.m20 - -b * r.y, J.m21 - b * r.x, J.m22 - a⟩ : M3 ℝ) - outer (c • r) r

/-- `Jexp3(r, Jexp)`, `spatial/explog.hpp:191-195` -/
noncomputable def Jexp3 (ε : ℝ) (r : V3 ℝ) : M3 ℝ := Jexp3Op .setto ε r 0

/-- `renormalize_rotation_matrix`, `spatial/log.hxx:44-54` -/
noncomputable def renormalize (R : M3 ℝ) : M3 ℝ :=
  let c0 := (norm3 R.col0)⁻¹ • R.col0
  let c1 := (norm3 R.col1)⁻¹ • R.col1
  let c2 := c0.cross c1
  let c0 := c1.cross c2
  M3.ofCols c0 c1 c2

/-- `internal::compute_theta_axis<i0>`, `spatial/log.hxx:12-41`, on the entries it reads: `r21 = R(i2,i1)`,
`r12 = R(i1,i2)`, `s10 = R(i1,i0) + R(i0,i1)`, `s20 = R(i2,i0) + R(i0,i2)`. Returns the angle and the axis in
the order `(i0, i1, i2)`. -/
noncomputable def thetaAxis (ε val r21 r12 s10 s20 : ℝ) : ℝ × V3 ℝ :=
  let s := Real.sqrt (val + ε + ε * ε) * (if r21 ≥ r12 then 1 else -1)
  let axis : V3 ℝ := ⟨s / 2, 1 / (2 * s) * s10, 1 / (2 * s) * s20⟩
  let w := 1 / (2 * s) * (r21 - r12)
  let n := norm3 axis
  (2 * atan2 n w, n⁻¹ • axis)

/-- `log3_impl::run`, `spatial/log.hxx:60-144`, i.e. `log3(R, theta)` (`spatial/explog.hpp:82-96`): the vector and
`theta` -/
noncomputable def mlog3 (ε : ℝ) (R : M3 ℝ) : V3 ℝ × ℝ :=
  let Rn := renormalize R
  let tr := Rn.m00 + Rn.m11 + Rn.m22
  let cosv := (tr - 1) / 2
  let p := prec ε 2
  let val0 := 2 * Rn.m00 - tr + 1
  let val1 := 2 * Rn.m11 - tr + 1
  let val2 := 2 * Rn.m22 - tr + 1
  let t0 := thetaAxis ε val0 Rn.m21 Rn.m12 (Rn.m10 + Rn.m01) (Rn.m20 + Rn.m02)
  let t1 := thetaAxis ε val1 Rn.m02 Rn.m20 (Rn.m21 + Rn.m12) (Rn.m01 + Rn.m10)
  let t2 := thetaAxis ε val2 Rn.m10 Rn.m01 (Rn.m02 + Rn.m20) (Rn.m12 + Rn.m21)
  let ax0 : V3 ℝ := t0.2
  let ax1 : V3 ℝ := ⟨t1.2.z, t1.2.x, t1.2.y⟩
  let ax2 : V3 ℝ := ⟨t2.2.y, t2.2.z, t2.2.x⟩
  let thS := if val0 ≥ val1 then (if val0 ≥ val2 then t0.1 else t2.1) else (if val1 ≥ val2 then t1.1 else t2.1)
  let axS := if val0 ≥ val1 then (if val0 ≥ val2 then ax0 else ax2) else (if val1 ≥ val2 then ax1 else ax2)
  let acosE := Real.sqrt (2 * (1 - cosv) + ε * ε)
  let thN := if tr ≤ 3 - p then (if tr ≥ -1 + p then Real.arccos cosv else Real.pi - acosE) else acosE
  let anti := M3.unSkew Rn
  let n2 := anti.sqNorm
  let t := if thN ≥ p then thN / Real.sin thN else 1 + n2 / 6 + n2 * n2 * 3 / 40
  if cosv ≥ -1 + p then (t • anti, thN) else (thS • axS, thS)

/-- `Jlog3_impl::run`, `spatial/log.hxx:151-184`, i.e. `Jlog3(theta, log, Jlog)` (`spatial/explog.hpp:239-246`) -/
noncomputable def Jlog3 (ε θ : ℝ) (l : V3 ℝ) : M3 ℝ :=
  let ct := Real.cos θ
  let st := Real.sin θ
  let q := st / (1 - ct)
  let al := if θ < prec ε 3 then 1 / 12 + θ * θ / 720 else 1 / (θ * θ) - q / (2 * θ)
  let dg := if θ < prec ε 3 then 1 / 2 * (2 - θ * θ / 6) else 1 / 2 * (θ * q)
  addSkew ((1 / 2 : ℝ) • l) (addDiag (al • outer l l) dg)

/-- `Jlog3(R, Jlog)`, `spatial/explog.hpp:260-270` -/
noncomputable def Jlog3R (ε : ℝ) (R : M3 ℝ) : M3 ℝ := Jlog3 ε (mlog3 ε R).2 (mlog3 ε R).1

/-- `Hlog3(theta, log, v, vt_Hlog)`, `spatial/explog.hpp:272-310` -/
noncomputable def Hlog3 (θ : ℝ) (l v : V3 ℝ) : M3 ℝ :=
  let ct := Real.cos θ
  let st := Real.sin θ
  let den := 1 / 2 / (1 - ct)
  let a := θ * st * den
  let da := (st - θ) * den
  let b := (1 - a) / (θ * θ)
  let db := -(2 / θ - (θ + st) * den) / (θ * θ)
  let dl := a • v + (1 / 2 : ℝ) • l.cross v + (b * l.dot v) • l
  let dt := l.dot dl / θ
  let H := (db * dt) • outer l l
  let H := H + b • outer dl l
  let H := H + b • outer l dl
  let H := addSkew ((1 / 2 : ℝ) • dl) H
  addDiag H (da * dt)

/-! ## rigid motions -/

/-- `exp6(nu)`, `spatial/explog.hpp:343-404` -/
noncomputable def mexp6 (ε : ℝ) (nu : Motion ℝ) : SE3 ℝ :=
  let w := nu.ang
  let v := nu.lin
  let t2 := w.sqNorm + ε * ε
  let t := Real.sqrt t2
  let ct := Real.cos t
  let st := Real.sin t
  let inv := 1 / t2
  let aWxv := if t < prec ε 3 then 1 / 2 - t2 / 24 else (1 - ct) * inv
  let aV := if t < prec ε 3 then 1 - t2 / 6 else st / t
  let aW := if t < prec ε 3 then 1 / 6 - t2 / 120 else (1 - aV) * inv
  let dg := if t < prec ε 3 then 1 - t2 / 2 else ct
  ⟨addDiag (addSkew (aV • w) (aWxv • outer w w)) dg, aV • v + (aW * w.dot v) • w + aWxv • w.cross v⟩

/-- `inv_2_2ct`, `spatial/explog.hpp:513` and `spatial/log.hxx:328`: the divisor is zero at every full turn -/
noncomputable def inv22ct (t : ℝ) : ℝ := 1 / (2 * (1 - Real.cos t))

/-- `beta`, `spatial/explog.hpp:515-518` and `spatial/log.hxx:330-334`, for a given value of `inv_2_2ct` -/
noncomputable def beta (ε t x : ℝ) : ℝ :=
  if t < prec ε 3 then 1 / 12 + t * t / 720 else 1 / t * (1 / t) - Real.sin t * (1 / t) * x

/-- `beta_dot_over_theta`, `spatial/explog.hpp:520-524` and `spatial/log.hxx:336-341`, for a given value of
`inv_2_2ct` -/
noncomputable def betaDot (ε t x : ℝ) : ℝ :=
  if t < prec ε 3 then 1 / 360
  else -2 * (1 / t * (1 / t)) * (1 / t * (1 / t)) + (1 + Real.sin t * (1 / t)) * (1 / t * (1 / t)) * x

/-- the matrix `J` of `Jexp6`, `spatial/explog.hpp:533-536` -/
noncomputable def jexp6J (be bd t2 : ℝ) (w p : V3 ℝ) : M3 ℝ :=
  let wTp := w.dot p
  M3.alphaSkew (1 / 2) p + outer ((bd * wTp) • w) w - outer ((t2 * bd + 2 * be) • p) w + (wTp * be) • (1 : M3 ℝ)
    + outer (be • w) p

/-- `Jexp6<op>(nu, Jexp)`, `spatial/explog.hpp:495-579`, with `x` for `inv_2_2ct`. Only `SETTO` writes the
bottom left block. -/
noncomputable def Jexp6OpWith (x : ℝ) (op : Op) (ε : ℝ) (nu : Motion ℝ) (J : M6 ℝ) : M6 ℝ :=
  let w := nu.ang
  let v := nu.lin
  let t2 := w.sqNorm
  let t := Real.sqrt t2
  let be := beta ε t x
  let bd := betaDot ε t x
  match op with
  | .setto =>
    let aa := Jexp3Op .setto ε w J.aa
    let ll := aa
    let p := ll.tr.mulVec v
    ⟨ll, -ll * jexp6J be bd t2 w p, 0, aa⟩
  | .addto =>
    let j := Jexp3Op .setto ε w 0
    let p := j.tr.mulVec v
    ⟨J.ll + j, J.la + -j * jexp6J be bd t2 w p, J.al, J.aa + j⟩
  | .rmto =>
    let j := Jexp3Op .setto ε w 0
    let p := j.tr.mulVec v
    ⟨J.ll - j, J.la - -j * jexp6J be bd t2 w p, J.al, J.aa - j⟩

/-- `Jexp6<op>(nu, Jexp)`, `spatial/explog.hpp:495-579` -/
noncomputable def Jexp6Op (op : Op) (ε : ℝ) (nu : Motion ℝ) (J : M6 ℝ) : M6 ℝ :=
  Jexp6OpWith (inv22ct (norm3 nu.ang)) op ε nu J

/-- `Jexp6(nu)`, `spatial/explog.hpp:591-605` -/
noncomputable def Jexp6 (ε : ℝ) (nu : Motion ℝ) : M6 ℝ := Jexp6Op .setto ε nu 0

/-- `log6_impl::run(M, mout)`, `spatial/log.hxx:191-230`, i.e. `log6(M)` (`spatial/explog.hpp:434-441`) -/
noncomputable def mlog6 (ε : ℝ) (M : SE3 ℝ) : Motion ℝ :=
  let R := M.rot
  let p := M.trans
  let t2 := (M3.unSkew R).sqNorm
  let r := mlog3 ε R
  let w := r.1
  let th := r.2
  let tr := R.m00 + R.m11 + R.m22
  let ct := Real.cos th
  let st := Real.sin th
  let al := if tr ≥ 3 - prec ε 2 then 1 - t2 / 12 - t2 * t2 / 720 else th * st / (2 * (1 - ct))
  let be := if tr ≥ 3 - prec ε 2 then 1 / 12 + t2 / 720 else 1 / (th * th) - st / (2 * th * (1 - ct))
  ⟨al • p - (1 / 2 : ℝ) • w.cross p + (be * w.dot p) • w, w⟩

/-- `Jlog6_impl::run`, `spatial/log.hxx:294-354`, i.e. `Jlog6(M, Jlog)` -/
noncomputable def Jlog6 (ε : ℝ) (M : SE3 ℝ) : M6 ℝ :=
  let p := M.trans
  let r := mlog3 ε M.rot
  let w := r.1
  let t := r.2
  let A := Jlog3 ε t w
  let x := inv22ct t
  let be := beta ε t x
  let bd := betaDot ε t x
  let wTp := w.dot p
  let v3 := (bd * wTp) • w - (t * t * bd + 2 * be) • p
  let C := outer v3 w
  let C := C + outer (be • w) p
  let C := addDiag C (wTp * be)
  let C := addSkew ((1 / 2 : ℝ) • p) C
  ⟨A, C * A, 0, A⟩

/-! ## quaternion coefficients -/

/-- `quaternion::Jexp3CoeffWise`, `spatial/explog-quaternion.hpp:292-323`: the three upper rows and the last row -/
noncomputable def Jexp3CoeffWise (ε : ℝ) (v : V3 ℝ) : M3 ℝ × V3 ℝ :=
  let n2 := v.sqNorm
  let n := Real.sqrt n2
  let th := 1 / 2 * n
  let th2 := 1 / 4 * n2
  if n2 > Real.sqrt ε then
    let c := Real.cos th
    let s := Real.sin th
    (addDiag (outer ((1 / 2 / n2 * (c - 2 * s / n)) • v) v) (s / n), (-s / (2 * n)) • v)
  else
    (addDiag (outer ((-1 / 12 + n2 / 480) • v) v) (1 / 2 * (1 - th2 / 6)), (-1 / 4 * (1 - th2 / 6)) • v)

/-- `SO(3)::integrateCoeffWiseJacobian_impl`, `special-orthogonal.hpp:484-524`, also the lower right block of
`SE(3)` (`special-euclidean.hpp:709-759`): the three upper rows and the last row -/
noncomputable def so3CoeffJ (ε : ℝ) (q : Quat ℝ) : M3 ℝ × V3 ℝ :=
  let r := log3 ε q
  let E := Jexp3CoeffWise ε r.1
  let L := Jlog3 ε r.2 r.1
  if q.w ≥ 0 then (E.1 * L, L.tr.mulVec E.2) else (-E.1 * L, L.tr.mulVec (-E.2))

/-! ## the groups -/

/-- entries of a 3×3 matrix -/
def m3e (M : M3 ℝ) (i j : ℕ) : ℝ :=
  if i = 0 then (if j = 0 then M.m00 else if j = 1 then M.m01 else M.m02)
  else if i = 1 then (if j = 0 then M.m10 else if j = 1 then M.m11 else M.m12)
  else (if j = 0 then M.m20 else if j = 1 then M.m21 else M.m22)

/-- entries of a 6×6 matrix -/
def m6e (M : M6 ℝ) (i j : ℕ) : ℝ :=
  if i < 3 then (if j < 3 then m3e M.ll i j else m3e M.la i (j - 3))
  else (if j < 3 then m3e M.al (i - 3) j else m3e M.aa (i - 3) (j - 3))

/-- `SE(2)::toInverseActionMatrix`, `special-euclidean.hpp:91-126`, of the pair `(cos, sin, t0, t1)` returned by
`exp`; the bottom left block is written by `SETTO` only (it holds zero) -/
noncomputable def se2InvAct (e : ℝ × ℝ × ℝ × ℝ) (i j : ℕ) : ℝ :=
  let c := e.1
  let s := e.2.1
  let t0 := e.2.2.1
  let t1 := e.2.2.2
  if i = 0 then (if j = 0 then c else if j = 1 then s else -(-s * t0 + c * t1))
  else if i = 1 then (if j = 0 then -s else if j = 1 then c else c * t0 + s * t1)
  else (if j = 2 then 1 else 0)

/-- `SE(2)::Jlog`, `special-euclidean.hpp:162-204` -/
noncomputable def se2Jlog (r00 r01 r10 r11 p0 p1 : ℝ) (i j : ℕ) : ℝ :=
  let t := so2Log r00 r01 r10 r11
  let tabs := |t|
  let t2 := t * t
  let st := Real.sin t
  let ct := Real.cos t
  let inv := 1 / 2 / (1 - ct)
  let al := if tabs < 1 / 10 ^ 4 then 1 - t2 / 12 else t * st * inv
  let ald := if tabs < 1 / 10 ^ 4 then -t / 6 - t2 * t / 180 else (st - t) * inv
  let v10 := -t / 2
  let v01 := -v10
  if i = 0 then (if j = 0 then al * r00 + v01 * r10 else if j = 1 then al * r01 + v01 * r11 else ald * p0 + p1 / 2)
  else if i = 1 then
    (if j = 0 then v10 * r00 + al * r10 else if j = 1 then v10 * r01 + al * r11 else -p0 / 2 + ald * p1)
  else (if j = 2 then 1 else 0)

/-- `SE(2)::dDifference_impl`, `special-euclidean.hpp:250-287` -/
noncomputable def se2DDiff (arg : Arg) (q0 q1 : ℕ → ℝ) (i j : ℕ) : ℝ :=
  let c0 := q0 2
  let s0 := q0 3
  let c1 := q1 2
  let s1 := q1 3
  let dx := q1 0 - q0 0
  let dy := q1 1 - q0 1
  let r00 := c0 * c1 + s0 * s1
  let r01 := c0 * (-s1) + s0 * c1
  let r10 := -s0 * c1 + c0 * s1
  let r11 := -s0 * (-s1) + c0 * c1
  let J1 := se2Jlog r00 r01 r10 r11 (c0 * dx + s0 * dy) (-s0 * dx + c0 * dy)
  match arg with
  | .arg1 => J1 i j
  | .arg0 =>
    let px := q1 1 - q0 1
    let py := q0 0 - q1 0
    let j02 := c1 * px + s1 * py
    let j12 := -s1 * px + c1 * py
    let J0 (k l : ℕ) : ℝ :=
      if k = 0 then (if l = 0 then -r00 else if l = 1 then -r10 else j02)
      else if k = 1 then (if l = 0 then -r01 else if l = 1 then -r11 else j12)
      else (if l = 2 then -1 else 0)
    J1 i 0 * J0 0 j + J1 i 1 * J0 1 j + J1 i 2 * J0 2 j

/-- the twist of `SE(2)::dIntegrate_dv_impl`, `special-euclidean.hpp:350-352` -/
def se2Nu (v : ℕ → ℝ) : Motion ℝ := ⟨⟨v 0, v 1, 0⟩, ⟨0, 0, v 2⟩⟩

/-- index in the 6×6 matrix of the index in the 3×3 matrix of SE(2): corners `0..1` and `5` -/
def se2Idx (i : ℕ) : ℕ := if i < 2 then i else 5

/-- `SE(3)::dDifference_impl`, `special-euclidean.hpp:616-658` -/
noncomputable def se3DDiff (ε : ℝ) (arg : Arg) (p0 : V3 ℝ) (q0 : Quat ℝ) (p1 : V3 ℝ) (q1 : Quat ℝ) : M6 ℝ :=
  let dv := p1 - p0
  let trans := qrot q0.conj dv
  let M : SE3 ℝ := ⟨(q0.conj * q1).toMat, trans⟩
  match arg with
  | .arg1 => Jlog6 ε M
  | .arg0 =>
    let J1 := Jlog6 ε M
    let p10 := qrot q1.conj dv
    let d := -M.rot.tr
    J1 * ⟨d, M3.skew p10 * M.rot.tr, 0, d⟩

namespace LG

/-- the entry written (`SETTO`), added (`ADDTO`) or subtracted (`RMTO`) by `dIntegrate_dq_impl` (`ARG0`) and
`dIntegrate_dv_impl` (`ARG1`): `vector-space.hpp:161-216`, `special-orthogonal.hpp:201-255` (SO(2)),
`526-578` (SO(3)), `special-euclidean.hpp:325-383` (SE(2)), `761-813` (SE(3)) -/
noncomputable def dInt (ε : ℝ) (g : LG) (arg : Arg) (v : ℕ → ℝ) (i j : ℕ) : ℝ := match g, arg with
  | vec _, _ => if i = j then 1 else 0
  | so2, _ => 1
  | so3, .arg0 => m3e (mexp3 ε (-(vecAt v 0))) i j
  | so3, .arg1 => m3e (Jexp3 ε (vecAt v 0)) i j
  | se2, .arg0 => se2InvAct (se2Exp v) i j
  | se2, .arg1 => m6e (Jexp6 ε (se2Nu v)) (se2Idx i) (se2Idx j)
  | se3, .arg0 => m6e (mexp6 ε ⟨vecAt v 0, vecAt v 3⟩).toDualActionMatrix.tr i j
  | se3, .arg1 => m6e (Jexp6 ε ⟨vecAt v 0, vecAt v 3⟩) i j

/-- `dDifference_impl<arg>`: `vector-space.hpp:91-103`, `special-orthogonal.hpp:149-162`, `421-466`,
`special-euclidean.hpp:250-287`, `616-658`; the 1×1 Jacobian of SO(2)`::log` is `1`
(`special-orthogonal.hpp:99-107`) -/
noncomputable def dDiff (ε : ℝ) (g : LG) (arg : Arg) (q0 q1 : ℕ → ℝ) (i j : ℕ) : ℝ := match g with
  | vec _ => match arg with
    | .arg0 => -(if i = j then 1 else 0)
    | .arg1 => if i = j then 1 else 0
  | so2 => match arg with
    | .arg0 => -1
    | .arg1 => 1
  | so3 =>
    let R := ((quatAt q0 0).conj * quatAt q1 0).toMat
    match arg with
    | .arg0 => m3e (-(Jlog3R ε R) * R.tr) i j
    | .arg1 => m3e (Jlog3R ε R) i j
  | se2 => se2DDiff arg q0 q1 i j
  | se3 => m6e (se3DDiff ε arg (vecAt q0 0) (quatAt q0 3) (vecAt q1 0) (quatAt q1 3)) i j

/-- `integrateCoeffWiseJacobian_impl`: `vector-space.hpp:152-158`, `special-orthogonal.hpp:188-199`, `484-524`,
`special-euclidean.hpp:309-323`, `703-759` -/
noncomputable def coeffJ (ε : ℝ) (g : LG) (q : ℕ → ℝ) (i j : ℕ) : ℝ := match g with
  | vec _ => if i = j then 1 else 0
  | so2 => if i = 0 then -q 1 else q 0
  | so3 =>
    let r := so3CoeffJ ε (quatAt q 0)
    if i < 3 then m3e r.1 i j else vcoef r.2 j
  | se2 =>
    if i = 0 then (if j = 0 then q 2 else if j = 1 then -q 3 else 0)
    else if i = 1 then (if j = 0 then q 3 else if j = 1 then q 2 else 0)
    else if i = 2 then (if j = 2 then -q 3 else 0)
    else (if j = 2 then q 2 else 0)
  | se3 =>
    let r := so3CoeffJ ε (quatAt q 3)
    if i < 3 then (if j < 3 then m3e (quatAt q 3).toMat i j else 0)
    else if j < 3 then 0
    else if i < 6 then m3e r.1 (i - 3) (j - 3) else vcoef r.2 (j - 3)

end LG

/-! ## model level -/

/-- `dIntegrateStepAlgo::run`, `liegroup-algo.hxx:233-248`: the block `(idx_v, idx_v)` of size `nv` -/
noncomputable def dIntegrateStep (ε : ℝ) (v : ℕ → ℝ) (arg : Arg) (op : Op) (J : ℕ → ℕ → ℝ) (s : Slot) : ℕ → ℕ → ℝ :=
  fun i j => if (s.iv ≤ i ∧ i < s.iv + s.g.nv) ∧ s.iv ≤ j ∧ j < s.iv + s.g.nv then
    op.ap (J i j) (s.g.dInt ε arg (seg v s.iv) (i - s.iv) (j - s.iv)) else J i j

/-- `dIntegrate(model, q, v, J, arg, op)`, `joint-configuration.hxx:208-244`; `q` is only read by the size check -/
noncomputable def dIntegrate (ε : ℝ) (m : Model ℝ LJ) (_q v : ℕ → ℝ) (J : ℕ → ℕ → ℝ) (arg : Arg) (op : Op) :
    ℕ → ℕ → ℝ := (slotsOf m).foldl (dIntegrateStep ε v arg op) J

/-- `dDifferenceStepAlgo::run`, `liegroup-algo.hxx:382-396` -/
noncomputable def dDifferenceStep (ε : ℝ) (q0 q1 : ℕ → ℝ) (arg : Arg) (J : ℕ → ℕ → ℝ) (s : Slot) : ℕ → ℕ → ℝ :=
  fun i j => if (s.iv ≤ i ∧ i < s.iv + s.g.nv) ∧ s.iv ≤ j ∧ j < s.iv + s.g.nv then
    s.g.dDiff ε arg (seg q0 s.iq) (seg q1 s.iq) (i - s.iv) (j - s.iv) else J i j

/-- `dDifference(model, q0, q1, J, arg)`, `joint-configuration.hxx:324-358` -/
noncomputable def dDifference (ε : ℝ) (m : Model ℝ LJ) (q0 q1 : ℕ → ℝ) (J : ℕ → ℕ → ℝ) (arg : Arg) : ℕ → ℕ → ℝ :=
  (slotsOf m).foldl (dDifferenceStep ε q0 q1 arg) J

/-- `dIntegrateTransportStepAlgo::run`, `liegroup-algo.hxx:284-304`: the rows `idx_v..` of `Jout` become the
product of the joint's matrix with the same rows of `Jin`. For SE(3) the code leaves out the zero bottom left
block (`special-euclidean.hpp:815-876`), for SE(2) and the vector spaces the products by one and zero
(`special-euclidean.hpp:385-478`); a product with the whole matrix is written here. -/
noncomputable def transportStep (ε : ℝ) (v : ℕ → ℝ) (arg : Arg) (Jin J : ℕ → ℕ → ℝ) (s : Slot) : ℕ → ℕ → ℝ :=
  fun i j => if s.iv ≤ i ∧ i < s.iv + s.g.nv then
    ∑ k ∈ Finset.range s.g.nv, s.g.dInt ε arg (seg v s.iv) (i - s.iv) k * Jin (s.iv + k) j else J i j

/-- `dIntegrateTransport(model, q, v, Jin, Jout, arg)`, `joint-configuration.hxx:255-287` -/
noncomputable def dIntegrateTransport (ε : ℝ) (m : Model ℝ LJ) (_q v : ℕ → ℝ) (Jin Jout : ℕ → ℕ → ℝ) (arg : Arg) :
    ℕ → ℕ → ℝ := (slotsOf m).foldl (transportStep ε v arg Jin) Jout

/-- `dIntegrateTransport(model, q, v, J, arg)`, in place, `joint-configuration.hxx:297-322`: each joint reads the
rows it writes -/
noncomputable def dIntegrateTransportInPlace (ε : ℝ) (m : Model ℝ LJ) (_q v : ℕ → ℝ) (J : ℕ → ℕ → ℝ) (arg : Arg) :
    ℕ → ℕ → ℝ := (slotsOf m).foldl (fun J s => transportStep ε v arg J J s) J

end Lie
end Pin
