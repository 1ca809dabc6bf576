import Verif.Math.Quaternion
import Verif.Model.Construction
import Mathlib.Analysis.SpecialFunctions.Trigonometric.Basic
import Mathlib.Analysis.SpecialFunctions.Trigonometric.Inverse
import Mathlib.Analysis.SpecialFunctions.Complex.Arg
import Mathlib.Analysis.SpecialFunctions.Pow.Real

/-!
# Configuration spaces

Models `multibody/liegroup/*.hpp`, `spatial/explog-quaternion.hpp`, the quaternion overload of `log6` in
`spatial/log.hxx`, and the model-level loops of `algorithm/joint-configuration.hxx`.

Scalars are real numbers: `sin`, `cos`, `acos`, `asin`, `atan2`, `sqrt` are the real functions. `ε` is
`Eigen::NumTraits<Scalar>::epsilon()`; the thresholds of the Taylor branches are computed from it exactly as
the code does. Rounding is not modelled. `assert`s (debug builds) are not modelled.
-/

namespace Pin
namespace Lie

/-- `TaylorSeriesExpansion::precision<degree>()`, `math/taylor-expansion.hpp:30-36` -/
noncomputable def prec (ε : ℝ) (degree : ℕ) : ℝ := ε ^ ((1 : ℝ) / (degree + 1))

/-- `math::atan2(y, x)` -/
noncomputable def atan2 (y x : ℝ) : ℝ := Complex.arg ⟨x, y⟩

/-! ## quaternions -/

/-- the vector part of a quaternion -/
def qvec (q : Quat ℝ) : V3 ℝ := ⟨q.x, q.y, q.z⟩

/-- a quaternion from its vector part and its scalar part -/
def qmk (u : V3 ℝ) (w : ℝ) : Quat ℝ := ⟨u.x, u.y, u.z, w⟩

/-- `quaternion::exp3`, `spatial/explog-quaternion.hpp:25-63`; `AngleAxis(t, v/t)` converted to a
quaternion is `(sin(t/2) v/t, cos(t/2))`. -/
noncomputable def exp3 (ε : ℝ) (v : V3 ℝ) : Quat ℝ :=
  let t2 := v.sqNorm
  let t := Real.sqrt (t2 + ε * ε)
  if t2 > prec ε 3 then
    qmk (Real.sin (t / 2) • (t⁻¹ • v)) (Real.cos (t / 2))
  else
    let h := t2 / 4
    qmk ((1 / 2 * (1 - h / 6 + h * h / 120)) • v) (1 - h / 2 + h * h / 24)

/-- `quaternion::log3(quat, theta)`, `spatial/explog-quaternion.hpp:205-261`: the pair `(res, theta)` -/
noncomputable def log3 (ε : ℝ) (q : Quat ℝ) : V3 ℝ × ℝ :=
  let n2 := (qvec q).sqNorm
  let norm := Real.sqrt (n2 + ε * ε)
  let posNeg : ℝ := if q.w ≥ 0 then 1 else -1
  let w := posNeg * q.w
  let vec := posNeg • qvec q
  let theta2 := atan2 norm w
  let yx := norm / w
  let yxSq := n2 / (w * w)
  let theta := if n2 < prec ε 2 then 2 * (1 - yxSq / 3) * yx else 2 * theta2
  let th22 := theta * theta / 4
  let invSinc := if n2 < prec ε 2 then 2 * (1 + th22 / 6 + 7 / 360 * th22 * th22)
    else theta / Real.sin theta2
  (invSinc • vec, theta)

/-- `quaternion::firstOrderNormalize`, `math/quaternion.hpp:90-107` -/
noncomputable def firstOrderNormalize (q : Quat ℝ) : Quat ℝ :=
  let n2 := q.sqNorm
  let alpha := (3 - n2) / 2
  ⟨q.x * alpha, q.y * alpha, q.z * alpha, q.w * alpha⟩

/-- Eigen `Quaternion::_transformVector`, i.e. `quat * v` -/
def qrot (q : Quat ℝ) (v : V3 ℝ) : V3 ℝ :=
  let uv := (qvec q).cross v
  let uv := uv + uv
  v + q.w • uv + (qvec q).cross uv

/-! ## SE(3) maps -/

/-- `quaternion::exp6`, `spatial/explog-quaternion.hpp:93-136`: translation and quaternion -/
noncomputable def exp6 (ε : ℝ) (v w : V3 ℝ) : V3 ℝ × Quat ℝ :=
  let t2 := w.sqNorm + ε * ε
  let t := Real.sqrt t2
  let ct := Real.cos t
  let st := Real.sin t
  let invT2 := 1 / t2
  let aWxv := if t < prec ε 3 then 1 / 2 - t2 / 24 else (1 - ct) * invT2
  let aW2 := if t < prec ε 3 then 1 / 6 - t2 / 120 else (t - st) * invT2 / t
  (v + aWxv • w.cross v + aW2 • w.cross (w.cross v), exp3 ε w)

/-- the quaternion overload of `log6_impl::run`, `spatial/log.hxx:206-262`: linear and angular part -/
noncomputable def log6 (ε : ℝ) (q : Quat ℝ) (p : V3 ℝ) : V3 ℝ × V3 ℝ :=
  let posNeg : ℝ := if q.w ≥ 0 then 1 else -1
  let r := log3 ε q
  let w := r.1
  let theta := r.2
  let t2 := w.sqNorm
  let ct2 := posNeg * q.w
  let st2 := Real.sqrt ((qvec q).sqNorm + ε * ε)
  let cot := ct2 / st2
  let th2sq := t2 / 4
  let betaAlt := (1 / 3 - th2sq / 45) / 4
  let beta := if theta ≤ prec ε 3 then betaAlt else 1 / t2 - cot * (1 / 2) / theta
  (p - (1 / 2 : ℝ) • w.cross p + beta • w.cross (w.cross p), w)

/-! ## SO(2) -/

/-- `SpecialOrthogonalOperationTpl<2>::log`, `special-orthogonal.hpp:60-97`; `(R00, R01, R10, R11)` -/
noncomputable def so2Log (r00 r01 r10 r11 : ℝ) : ℝ :=
  let tr := r00 + r11
  if tr > 2 then 0
  else if tr < -2 then (if r10 ≥ 0 then Real.pi else -Real.pi)
  else if tr > 2 - 1 / 100 then Real.arcsin ((r10 - r01) / 2)
  else if r10 ≥ 0 then Real.arccos (tr / 2) else -Real.arccos (tr / 2)

/-- `SO(2)::difference_impl`, `special-orthogonal.hpp:136-147` -/
noncomputable def so2Diff (q0 q1 : ℕ → ℝ) : ℝ :=
  let r00 := q0 0 * q1 0 + q0 1 * q1 1
  let r10 := q0 0 * q1 1 - q0 1 * q1 0
  so2Log r00 (-r10) r10 r00

/-- `SO(2)::integrate_impl`, `special-orthogonal.hpp:164-186` -/
noncomputable def so2Int (q : ℕ → ℝ) (v : ℝ) : ℝ × ℝ :=
  let ca := q 0
  let sa := q 1
  let cw := Real.cos v
  let sw := Real.sin v
  let o0 := cw * ca - sw * sa
  let o1 := sw * ca + cw * sa
  let n2 := o0 * o0 + o1 * o1
  (o0 * ((3 - n2) / 2), o1 * ((3 - n2) / 2))

/-- `SO(2)::interpolate_impl`, `special-orthogonal.hpp:283-330` -/
noncomputable def so2Interp (q0 q1 : ℕ → ℝ) (u : ℝ) (k : ℕ) : ℝ :=
  let cosT := q0 0 * q1 0 + q0 1 * q1 1
  let sinT := q0 0 * q1 1 - q0 1 * q1 0
  let theta := atan2 sinT cosT
  if |theta| < 1 / 10 ^ 6 then (1 - u) * q0 k + u * q1 k
  else if |theta| < Real.pi - 1 / 10 ^ 6 then
    Real.sin ((1 - u) * theta) / sinT * q0 k + Real.sin (u * theta) / sinT * q1 k
  else q0 k

/-! ## SE(2) -/

/-- `SpecialEuclideanOperationTpl<2>::exp`, `special-euclidean.hpp:58-89`: `(cos, sin, t0, t1)`; the rotation
is `[[cos, -sin], [sin, cos]]` -/
noncomputable def se2Exp (v : ℕ → ℝ) : ℝ × ℝ × ℝ × ℝ :=
  let om := v 2
  let cv := Real.cos om
  let sv := Real.sin om
  let c0 := (-v 1 - (-v 1 * cv + v 0 * (-sv))) / om
  let c1 := (v 0 - (-v 1 * sv + v 0 * cv)) / om
  (cv, sv, if |om| > 1 / 10 ^ 14 then c0 else v 0, if |om| > 1 / 10 ^ 14 then c1 else v 1)

/-- `SpecialEuclideanOperationTpl<2>::log`, `special-euclidean.hpp:128-160` -/
noncomputable def se2Log (r00 r01 r10 r11 p0 p1 : ℝ) : ℕ → ℝ :=
  let t := so2Log r00 r01 r10 r11
  let tabs := |t|
  let t2 := t * t
  let st := Real.sin tabs
  let ct := Real.cos tabs
  let alpha := if tabs < 1 / 10 ^ 4 then 1 - t2 / 12 - t2 * t2 / 720 else tabs * st / (2 * (1 - ct))
  fun k => if k = 0 then alpha * p0 + t / 2 * p1 else if k = 1 then alpha * p1 + -t / 2 * p0 else t

/-- `SE(2)::difference_impl`, `special-euclidean.hpp:230-248`, with `forwardKinematics` (516-531) inlined -/
noncomputable def se2Diff (q0 q1 : ℕ → ℝ) : ℕ → ℝ :=
  let c0 := q0 2
  let s0 := q0 3
  let c1 := q1 2
  let s1 := q1 3
  let dx := q1 0 - q0 0
  let dy := q1 1 - q0 1
  se2Log (c0 * c1 + s0 * s1) (c0 * (-s1) + s0 * c1) (-s0 * c1 + c0 * s1) (-s0 * (-s1) + c0 * c1)
    (c0 * dx + s0 * dy) (-s0 * dx + c0 * dy)

/-- `SE(2)::integrate_impl`, `special-euclidean.hpp:289-307` -/
noncomputable def se2Int (q v : ℕ → ℝ) : ℕ → ℝ :=
  let c0 := q 2
  let s0 := q 3
  let e := se2Exp v
  fun k => if k = 0 then c0 * e.2.2.1 + -s0 * e.2.2.2 + q 0
    else if k = 1 then s0 * e.2.2.1 + c0 * e.2.2.2 + q 1
    else if k = 2 then c0 * e.1 + -s0 * e.2.1
    else s0 * e.1 + c0 * e.2.1

/-! ## SO(3) and SE(3) -/

/-- the quaternion stored in a segment -/
def quatAt (q : ℕ → ℝ) (i : ℕ) : Quat ℝ := ⟨q i, q (i + 1), q (i + 2), q (i + 3)⟩

/-- the vector stored in a segment -/
def vecAt (q : ℕ → ℝ) (i : ℕ) : V3 ℝ := ⟨q i, q (i + 1), q (i + 2)⟩

/-- coefficients of a quaternion, in storage order -/
def qcoef (q : Quat ℝ) : ℕ → ℝ := fun k => if k = 0 then q.x else if k = 1 then q.y else if k = 2 then q.z else q.w

/-- coefficients of a vector -/
def vcoef (v : V3 ℝ) : ℕ → ℝ := fun k => if k = 0 then v.x else if k = 1 then v.y else v.z

/-- `SO(3)::difference_impl`, `special-orthogonal.hpp:406-419` -/
noncomputable def so3Diff (ε : ℝ) (q0 q1 : Quat ℝ) : V3 ℝ := (log3 ε (q0.conj * q1)).1

/-- `SO(3)::integrate_impl`, `special-orthogonal.hpp:467-482` -/
noncomputable def so3Int (ε : ℝ) (q : Quat ℝ) (v : V3 ℝ) : Quat ℝ := firstOrderNormalize (q * exp3 ε v)

/-- `SE(3)::difference_impl`, `special-euclidean.hpp:595-612` -/
noncomputable def se3Diff (ε : ℝ) (p0 : V3 ℝ) (q0 : Quat ℝ) (p1 : V3 ℝ) (q1 : Quat ℝ) : V3 ℝ × V3 ℝ :=
  log6 ε (q0.conj * q1) (qrot q0.conj (p1 - p0))

/-- `SE(3)::integrate_impl`, `special-euclidean.hpp:660-700` -/
noncomputable def se3Int (ε : ℝ) (p : V3 ℝ) (q : Quat ℝ) (v w : V3 ℝ) : V3 ℝ × Quat ℝ :=
  let e := exp6 ε v w
  let r := q * e.2
  let r := if r.dot q < 0 then -r else r
  (qrot q e.1 + p, firstOrderNormalize r)

/-! ## the operations of a joint -/

/-- the Lie groups of `LieGroupMap`, `liegroup.hpp:18-80` -/
inductive LG where
  /-- `VectorSpaceOperationTpl<n>` -/
  | vec (n : ℕ)
  /-- `SpecialOrthogonalOperationTpl<2>` -/
  | so2
  /-- `SpecialOrthogonalOperationTpl<3>` -/
  | so3
  /-- `SpecialEuclideanOperationTpl<2>` -/
  | se2
  /-- `SpecialEuclideanOperationTpl<3>` -/
  | se3
  deriving DecidableEq

namespace LG

/-- `nq()` -/
def nq : LG → ℕ
  | vec n => n
  | so2 => 2
  | so3 => 4
  | se2 => 4
  | se3 => 7

/-- `nv()` -/
def nv : LG → ℕ
  | vec n => n
  | so2 => 1
  | so3 => 3
  | se2 => 3
  | se3 => 6

/-- `integrate_impl` of each group; `VectorSpaceOperationTpl`: `vector-space.hpp:142-149` -/
noncomputable def integrate (ε : ℝ) (g : LG) (q v : ℕ → ℝ) : ℕ → ℝ := match g with
  | vec _ => fun k => q k + v k
  | so2 => fun k => if k = 0 then (so2Int q (v 0)).1 else (so2Int q (v 0)).2
  | so3 => qcoef (so3Int ε (quatAt q 0) (vecAt v 0))
  | se2 => se2Int q v
  | se3 =>
    let r := se3Int ε (vecAt q 0) (quatAt q 3) (vecAt v 0) (vecAt v 3)
    fun k => if k < 3 then vcoef r.1 k else qcoef r.2 (k - 3)

/-- `difference_impl` of each group; `VectorSpaceOperationTpl`: `vector-space.hpp:83-90` -/
noncomputable def difference (ε : ℝ) (g : LG) (q0 q1 : ℕ → ℝ) : ℕ → ℝ := match g with
  | vec _ => fun k => q1 k - q0 k
  | so2 => fun _ => so2Diff q0 q1
  | so3 => vcoef (so3Diff ε (quatAt q0 0) (quatAt q1 0))
  | se2 => se2Diff q0 q1
  | se3 =>
    let r := se3Diff ε (vecAt q0 0) (quatAt q0 3) (vecAt q1 0) (quatAt q1 3)
    fun k => if k < 3 then vcoef r.1 k else vcoef r.2 (k - 3)

/-- `interpolate_impl`: `LieGroupBase` (`liegroup-base.hxx:627-637`) except for SO(2)
(`special-orthogonal.hpp:283-330`) and SO(3) (`special-orthogonal.hpp:628-645`, same formula) -/
noncomputable def interpolate (ε : ℝ) (g : LG) (q0 q1 : ℕ → ℝ) (u : ℝ) : ℕ → ℝ := match g with
  | so2 => so2Interp q0 q1 u
  | g => g.integrate ε q0 fun k => u * g.difference ε q0 q1 k

/-- `neutral()`: `vector-space.hpp:70-75`, `special-orthogonal.hpp:123-128` and `392-397`,
`special-euclidean.hpp:217-222` and `581-587` -/
def neutral (g : LG) : ℕ → ℝ := match g with
  | vec _ => fun _ => 0
  | so2 => fun k => if k = 0 then 1 else 0
  | so3 => fun k => if k = 3 then 1 else 0
  | se2 => fun k => if k = 2 then 1 else 0
  | se3 => fun k => if k = 6 then 1 else 0

/-- squared norm of `q[i], …, q[i+n-1]` -/
def sqn (q : ℕ → ℝ) (i n : ℕ) : ℝ := ∑ k ∈ Finset.range n, q (i + k) * q (i + k)

/-- where the unit-norm part of a segment starts and its length -/
def unitPart : LG → ℕ × ℕ
  | vec _ => (0, 0)
  | so2 => (0, 2)
  | so3 => (0, 4)
  | se2 => (2, 2)
  | se3 => (3, 4)

/-- Eigen `normalize()` of `q[i..i+n)`: divides by the norm when the squared norm is positive -/
noncomputable def eigenNormalize (q : ℕ → ℝ) (i n : ℕ) : ℕ → ℝ :=
  let z := sqn q i n
  fun k => if i ≤ k ∧ k < i + n then (if z > 0 then q k / Real.sqrt z else q k) else q k

/-- `normalize_impl` of each group: nothing for vector spaces (`vector-space.hpp:275-278`), the whole segment
for SO(2) and SO(3) (`special-orthogonal.hpp:332-336, 660-664`), the tail for SE(2) and SE(3)
(`special-euclidean.hpp:482-486, 890-895`) -/
noncomputable def normalize (g : LG) (q : ℕ → ℝ) : ℕ → ℝ := match g with
  | vec _ => q
  | g => eigenNormalize q g.unitPart.1 g.unitPart.2

/-- `isNormalized_impl` of each group (same places as `normalize`) -/
noncomputable def isNormalized (g : LG) (q : ℕ → ℝ) (p : ℝ) : Prop := match g with
  | vec _ => True
  | g => |Real.sqrt (sqn q g.unitPart.1 g.unitPart.2) - 1| < p

/-- `squaredDistance_impl`, `liegroup-base.hxx:639-650` and overrides with the same formula
(`special-orthogonal.hpp:648-658`, `special-euclidean.hpp:878-888`) -/
noncomputable def sqDist (ε : ℝ) (g : LG) (q0 q1 : ℕ → ℝ) : ℝ := sqn (g.difference ε q0 q1) 0 g.nv

end LG

/-! ## model level -/

/-- A joint as seen by `LieGroupMap`: a plain joint with its group, a mimic joint (`nq = nv = 0`, vector
space of size 0), or a composite joint (whose joints may be composite). -/
inductive LJ where
  | simple (g : LG)
  | mimic
  | composite (l : List LJ)

/-- a plain joint at its place in the configuration and velocity vectors -/
structure Slot where
  g : LG
  iq : ℕ
  iv : ℕ
  deriving DecidableEq

namespace LJ

mutual
/-- `nq()`; composite joints: sum over the joints, `joint-composite.hpp:319-326` -/
def nq : LJ → ℕ
  | simple g => g.nq
  | mimic => 0
  | composite l => nqs l
/-- see `nq` -/
def nqs : List LJ → ℕ
  | [] => 0
  | j :: l => nq j + nqs l
end

mutual
/-- `nv()` -/
def nv : LJ → ℕ
  | simple g => g.nv
  | mimic => 0
  | composite l => nvs l
/-- see `nv` -/
def nvs : List LJ → ℕ
  | [] => 0
  | j :: l => nv j + nvs l
end

mutual
/-- The plain joints reached by `Algo::run` on a joint placed at `(iq, iv)`, in order: composite joints are
unfolded by `details::Dispatch::run` (`liegroup-algo.hxx:15-30`), their joints having been placed one after
the other by `updateJointIndexes` (`joint-composite.hpp:644-672`). A mimic joint selects segments of size 0:
nothing. -/
def slots : LJ → ℕ → ℕ → List Slot
  | simple g, iq, iv => [⟨g, iq, iv⟩]
  | mimic, _, _ => []
  | composite l, iq, iv => slotss l iq iv
/-- see `slots` -/
def slotss : List LJ → ℕ → ℕ → List Slot
  | [], _, _ => []
  | j :: l, iq, iv => slots j iq iv ++ slotss l (iq + nq j) (iv + nv j)
end

end LJ

/-- `vec.segment(i, n) = x` -/
def writeSeg (out : ℕ → ℝ) (i n : ℕ) (x : ℕ → ℝ) : ℕ → ℝ :=
  fun k => if i ≤ k ∧ k < i + n then x (k - i) else out k

/-- the plain joints of a model in the order of the loops `for (i = 1; i < njoints; ++i)` -/
def slotsOf (m : Model ℝ LJ) : List Slot :=
  (m.joints.drop 1).flatMap fun e => e.desc.payload.slots e.idx_q e.idx_v

/-- `IntegrateStepAlgo::run`, `liegroup-algo.hxx:189-202` -/
noncomputable def integrateStep (ε : ℝ) (q v : ℕ → ℝ) (out : ℕ → ℝ) (s : Slot) : ℕ → ℝ :=
  writeSeg out s.iq s.g.nq (s.g.integrate ε (seg q s.iq) (seg v s.iv))

/-- `integrate(model, q, v, qout)`, `joint-configuration.hxx:17-48` -/
noncomputable def integrate (ε : ℝ) (m : Model ℝ LJ) (q v out : ℕ → ℝ) : ℕ → ℝ :=
  (slotsOf m).foldl (integrateStep ε q v) out

/-- `DifferenceStepAlgo::run`, `liegroup-algo.hxx:469-482` -/
noncomputable def differenceStep (ε : ℝ) (q0 q1 : ℕ → ℝ) (out : ℕ → ℝ) (s : Slot) : ℕ → ℝ :=
  writeSeg out s.iv s.g.nv (s.g.difference ε (seg q0 s.iq) (seg q1 s.iq))

/-- `difference(model, q0, q1, dvout)`, `joint-configuration.hxx:84-115` -/
noncomputable def difference (ε : ℝ) (m : Model ℝ LJ) (q0 q1 out : ℕ → ℝ) : ℕ → ℝ :=
  (slotsOf m).foldl (differenceStep ε q0 q1) out

/-- `InterpolateStepAlgo::run`, `liegroup-algo.hxx:424-442` -/
noncomputable def interpolateStep (ε : ℝ) (q0 q1 : ℕ → ℝ) (u : ℝ) (out : ℕ → ℝ) (s : Slot) : ℕ → ℝ :=
  writeSeg out s.iq s.g.nq (s.g.interpolate ε (seg q0 s.iq) (seg q1 s.iq) u)

/-- `interpolate(model, q0, q1, u, qout)`, `joint-configuration.hxx:50-82` -/
noncomputable def interpolate (ε : ℝ) (m : Model ℝ LJ) (q0 q1 : ℕ → ℝ) (u : ℝ) (out : ℕ → ℝ) : ℕ → ℝ :=
  (slotsOf m).foldl (interpolateStep ε q0 q1 u) out

/-- `NeutralStepAlgo::run`, `liegroup-algo.hxx:714-724` -/
noncomputable def neutralStep (out : ℕ → ℝ) (s : Slot) : ℕ → ℝ := writeSeg out s.iq s.g.nq s.g.neutral

/-- `neutral(model, qout)`, `joint-configuration.hxx:184-206` -/
noncomputable def neutral (m : Model ℝ LJ) (out : ℕ → ℝ) : ℕ → ℝ := (slotsOf m).foldl neutralStep out

/-- `NormalizeStepAlgo::run`, `liegroup-algo.hxx:619-627` -/
noncomputable def normalizeStep (q : ℕ → ℝ) (s : Slot) : ℕ → ℝ :=
  writeSeg q s.iq s.g.nq (s.g.normalize (seg q s.iq))

/-- `normalize(model, qout)`, `joint-configuration.hxx:409-432` -/
noncomputable def normalize (m : Model ℝ LJ) (q : ℕ → ℝ) : ℕ → ℝ := (slotsOf m).foldl normalizeStep q

/-- `isNormalized(model, q, prec)`, `joint-configuration.hxx:434-464`: the loop stops at the first joint that
is not normalised; the result is the conjunction -/
def isNormalized (m : Model ℝ LJ) (q : ℕ → ℝ) (p : ℝ) : Prop :=
  ∀ s ∈ slotsOf m, s.g.isNormalized (seg q s.iq) p

/-- `SquaredDistanceStepAlgo::run`, `liegroup-algo.hxx:512-525`: `distances[i] += …` -/
noncomputable def sqDistStep (ε : ℝ) (i : ℕ) (q0 q1 : ℕ → ℝ) (out : ℕ → ℝ) (s : Slot) : ℕ → ℝ :=
  fun k => if k = i then out k + s.g.sqDist ε (seg q0 s.iq) (seg q1 s.iq) else out k

/-- `squaredDistance(model, q0, q1, out)`, `joint-configuration.hxx:117-148`: joint `i + 1` is accumulated
into entry `i` of the caller's vector -/
noncomputable def squaredDistance (ε : ℝ) (m : Model ℝ LJ) (q0 q1 out : ℕ → ℝ) : ℕ → ℝ :=
  ((m.joints.drop 1).zipIdx).foldl (fun out ei =>
    (ei.1.desc.payload.slots ei.1.idx_q ei.1.idx_v).foldl (sqDistStep ε ei.2 q0 q1) out) out

/-- `squaredDistanceSum(model, q0, q1)`, `joint-configuration.hxx:361-389` -/
noncomputable def squaredDistanceSum (ε : ℝ) (m : Model ℝ LJ) (q0 q1 : ℕ → ℝ) : ℝ :=
  (slotsOf m).foldl (fun acc s => acc + s.g.sqDist ε (seg q0 s.iq) (seg q1 s.iq)) 0

/-- `distance(model, q0, q1)`, `joint-configuration.hxx:391-405` -/
noncomputable def distance (ε : ℝ) (m : Model ℝ LJ) (q0 q1 : ℕ → ℝ) : ℝ :=
  Real.sqrt (squaredDistanceSum ε m q0 q1)

end Lie
end Pin
