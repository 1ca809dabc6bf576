import Verif.Algo.Jacobian

/-!
# `algorithm/kinematics-derivatives.hxx` and `algorithm/frames-derivatives.hxx`

Models without mimic joints (`assert(model.check(MimicChecker()))`). A `6 × nv` or `3 × nv` output matrix is the
function giving its columns; what it holds before the call is an argument.
-/

namespace Pin
variable {K : Type*} [CommRing K]

/-- `ForwardKinematicsDerivativesForwardStep::algo`, `algorithm/kinematics-derivatives.hxx:44-93`. -/
def fkdStep (s : Sys K) (q v a : ℕ → K) (i : ℕ) (d : Data K) : Data K :=
  let d := { d with joints := upd d.joints i ((s.jt i).calcV (s.qs q i) (s.vs v i) (d.joints i)) }
  let d := { d with liMi := upd d.liMi i (s.pl i * (d.joints i).M) }
  let d := { d with oMi := upd d.oMi i (if s.par i > 0 then d.oMi (s.par i) * d.liMi i else d.liMi i) }
  let d := { d with v := upd d.v i (d.joints i).v }
  let d := if s.par i > 0 then
      { d with v := upd d.v i (d.v i + (d.liMi i).actInv (d.v (s.par i))) } else d
  let d := { d with a := upd d.a i (comb (d.joints i).S (s.jnv i) (s.vs a i) + (d.joints i).c
    + (d.v i).cross (d.joints i).v) }
  let d := if s.par i > 0 then
      { d with a := upd d.a i (d.a i + (d.liMi i).actInv (d.a (s.par i))) } else d
  let d := { d with J := putSeg d.J (s.iv i) (s.jnv i) (fun k => (d.oMi i).act ((d.joints i).S k)) }
  let d := { d with ov := upd d.ov i ((d.oMi i).act (d.v i)) }
  let d := { d with dJ := putSeg d.dJ (s.iv i) (s.jnv i) (fun k => (d.ov i).cross (d.J (s.iv i + k))) }
  { d with oa := upd d.oa i ((d.oMi i).act (d.a i)) }

/-- `computeForwardKinematicsDerivatives`, `algorithm/kinematics-derivatives.hxx:96-134`. -/
def computeForwardKinematicsDerivatives (s : Sys K) (d : Data K) (q v a : ℕ → K) : Data K :=
  fwd (fkdStep s q v a) s.n { d with v := upd d.v 0 0, a := upd d.a 0 0 }

/-- `vtmp` of the cases `WORLD` and `LOCAL_WORLD_ALIGNED`, lines 215-219, 222-226, 381-384, 393-397 and, with
accelerations, 427-430, 437-440. -/
def relMotion (s : Sys K) (x : ℕ → Motion K) (last : Motion K) (i : ℕ) : Motion K :=
  if s.par i > 0 then x (s.par i) - last else -last

/-- `m.linear() += m.angular().cross(p)` -/
def shiftLin (m : Motion K) (p : V3 K) : Motion K := ⟨m.lin + m.ang.cross p, m.ang⟩

/-- `JointVelocityDerivativesBackwardStep::algo`, `algorithm/kinematics-derivatives.hxx:163-240`; the state is
`(v_partial_dq, v_partial_dv)`. -/
def velDerStep (s : Sys K) (d : Data K) (j : ℕ) (rf : RF) (i : ℕ) (x : (ℕ → Motion K) × (ℕ → Motion K)) :
    (ℕ → Motion K) × (ℕ → Motion K) :=
  let oMlast := d.oMi j
  let vlast := d.ov j
  let vdv := putSeg x.2 (s.iv i) (s.jnv i) (fun k => translateCol oMlast (d.J (s.iv i + k)) rf)
  let vdq := match rf with
    | .WORLD => putSeg x.1 (s.iv i) (s.jnv i) (fun k => (relMotion s d.ov vlast i).cross (d.J (s.iv i + k)))
    | .LOCAL_WORLD_ALIGNED => putSeg x.1 (s.iv i) (s.jnv i)
        (fun k => (shiftLin (relMotion s d.ov vlast i) oMlast.trans).cross (vdv (s.iv i + k)))
    | .LOCAL =>
      if s.par i > 0 then
        putSeg x.1 (s.iv i) (s.jnv i) (fun k => (oMlast.actInv (d.ov (s.par i))).cross (vdv (s.iv i + k)))
      else x.1
  (vdq, vdv)

/-- `getJointVelocityDerivatives`, `algorithm/kinematics-derivatives.hxx:243-281`. -/
def getJointVelocityDerivatives (s : Sys K) (d : Data K) (j : ℕ) (rf : RF) (x : (ℕ → Motion K) × (ℕ → Motion K)) :
    (ℕ → Motion K) × (ℕ → Motion K) :=
  upLoop s.par (velDerStep s d j rf) s.n j x

/-- the output matrices of `getJointAccelerationDerivatives` -/
structure AccDer (K : Type*) where
  v_dq : ℕ → Motion K
  a_dq : ℕ → Motion K
  a_dv : ℕ → Motion K
  a_da : ℕ → Motion K

/-- output matrices full of zeros -/
def AccDer.zero : AccDer K := ⟨fun _ => 0, fun _ => 0, fun _ => 0, fun _ => 0⟩

/-- `JointAccelerationDerivativesBackwardStep::algo`, `algorithm/kinematics-derivatives.hxx:315-460`. -/
def accDerStep (s : Sys K) (d : Data K) (j : ℕ) (rf : RF) (i : ℕ) (x : AccDer K) : AccDer K :=
  let oMlast := d.oMi j
  let put := fun (m : ℕ → Motion K) (f : ℕ → Motion K) => putSeg m (s.iv i) (s.jnv i) (fun k => f (s.iv i + k))
  let x := { x with a_da := put x.a_da (fun c => translateCol oMlast (d.J c) rf) }
  match rf with
  | .WORLD =>
    let vtmp := relMotion s d.ov (d.ov j) i
    let x := { x with v_dq := put x.v_dq (fun c => vtmp.cross (d.J c)) }
    let x := { x with a_dv := put x.a_dv (fun c => x.v_dq c + d.dJ c) }
    let atmp := relMotion s d.oa (d.oa j) i
    let x := { x with a_dq := put x.a_dq (fun c => atmp.cross (d.J c)) }
    if s.par i > 0 then { x with a_dq := put x.a_dq (fun c => x.a_dq c + vtmp.cross (d.dJ c)) } else x
  | .LOCAL_WORLD_ALIGNED =>
    let vtmp := shiftLin (relMotion s d.ov (d.ov j) i) oMlast.trans
    let x := { x with v_dq := put x.v_dq (fun c => vtmp.cross (x.a_da c)) }
    let x := { x with a_dv := put x.a_dv (fun c => translateCol oMlast (d.dJ c) rf) }
    let atmp := shiftLin (relMotion s d.oa (d.oa j) i) oMlast.trans
    let x := { x with a_dq := put x.a_dq (fun c => atmp.cross (x.a_da c)) }
    let x := if s.par i > 0 then { x with a_dq := put x.a_dq (fun c => x.a_dq c + vtmp.cross (x.a_dv c)) } else x
    { x with a_dv := put x.a_dv (fun c => x.a_dv c + x.v_dq c) }
  | .LOCAL =>
    let vtmp := oMlast.actInv (d.ov (s.par i))
    let x := if s.par i > 0 then { x with v_dq := put x.v_dq (fun c => vtmp.cross (x.a_da c)) } else x
    let vtmp := if s.par i > 0 then vtmp - d.v j else -d.v j
    let x := { x with a_dv := put x.a_dv (fun c => vtmp.cross (x.a_da c)) }
    let x := { x with a_dv := put x.a_dv (fun c => x.a_dv c + oMlast.actInv (d.dJ c)) }
    if s.par i > 0 then
      let atmp := oMlast.actInv (d.oa (s.par i))
      let x := { x with a_dq := put x.a_dq (fun c => atmp.cross (x.a_da c)) }
      { x with a_dq := put x.a_dq (fun c => x.a_dq c + vtmp.cross (x.v_dq c)) }
    else x

/-- `getJointAccelerationDerivatives`, `algorithm/kinematics-derivatives.hxx:467-513`; the overload at 524-542 also
copies `a_partial_da` to `v_partial_dv`. -/
def getJointAccelerationDerivatives (s : Sys K) (d : Data K) (j : ℕ) (rf : RF) (x : AccDer K) : AccDer K :=
  upLoop s.par (accDerStep s d j rf) s.n j x

/-- what the loops of `getFrameVelocityDerivatives` and `getFrameAccelerationDerivatives` do to a column,
`algorithm/frames-derivatives.hxx:59-64, 71-74, 142-149, 158-165`. -/
def frameCol (oMi placement : SE3 K) (m : Motion K) : RF → Motion K
  | .WORLD => m
  | .LOCAL_WORLD_ALIGNED => ⟨m.lin - (oMi.rot.mulVec placement.trans).cross m.ang, m.ang⟩
  | .LOCAL => placement.actInv m

/-- those loops, on one matrix: they walk up the columns of the support of `joint`; in `WORLD` nothing is done. -/
def frameLoop (s : Sys K) (d : Data K) (joint : ℕ) (placement : SE3 K) (rf : RF) (X : ℕ → Motion K) : ℕ → Motion K :=
  match rf with
  | .WORLD => X
  | _ => rowLoop (parentsFromRow s) (fun c X => upd X c (frameCol (d.oMi joint) placement (X c) rf)) (s.nv + 1)
      (lastCol s joint) X

/-- `getFrameVelocityDerivatives`, `algorithm/frames-derivatives.hxx:14-81`. The loop treats the columns of the two
matrices in turn; they are independent, so it is a loop on each. -/
def getFrameVelocityDerivatives (s : Sys K) (d : Data K) (j : ℕ) (placement : SE3 K) (rf : RF)
    (x : (ℕ → Motion K) × (ℕ → Motion K)) : (ℕ → Motion K) × (ℕ → Motion K) :=
  let x := getJointVelocityDerivatives s d j rf x
  (frameLoop s d j placement rf x.1, frameLoop s d j placement rf x.2)

/-- `getFrameAccelerationDerivatives`, `algorithm/frames-derivatives.hxx:83-177`; same remark. -/
def getFrameAccelerationDerivatives (s : Sys K) (d : Data K) (j : ℕ) (placement : SE3 K) (rf : RF) (x : AccDer K) :
    AccDer K :=
  let x := getJointAccelerationDerivatives s d j rf x
  { v_dq := frameLoop s d j placement rf x.v_dq
    a_dq := frameLoop s d j placement rf x.a_dq
    a_dv := frameLoop s d j placement rf x.a_dv
    a_da := frameLoop s d j placement rf x.a_da }

/-- `PointVelocityDerivativesBackwardStep::algo`, `algorithm/kinematics-derivatives.hxx:571-643`; `lwa` tells that
the reference frame is `LOCAL_WORLD_ALIGNED` rather than `LOCAL`. -/
def pointVelDerStep (s : Sys K) (d : Data K) (oMp : SE3 K) (vp : Motion K) (lwa : Bool) (i : ℕ)
    (x : (ℕ → V3 K) × (ℕ → V3 K)) : (ℕ → V3 K) × (ℕ → V3 K) :=
  let put := fun (m : ℕ → V3 K) (f : ℕ → V3 K) => putSeg m (s.iv i) (s.jnv i) (fun k => f (s.iv i + k))
  let vs := fun c => oMp.actInv (d.J c)
  let vdv := put x.2 (fun c => (vs c).lin)
  let vdq := if s.par i > 0 then
      let vtmp := oMp.actInv (d.ov (s.par i))
      put x.1 (fun c => vtmp.ang.cross (vs c).lin + vtmp.lin.cross (vs c).ang)
    else put x.1 (fun _ => 0)
  if lwa then
    (put vdq (fun c => oMp.rot.mulVec (vdq c + (vs c).ang.cross vp.lin)),
      put vdv (fun c => oMp.rot.mulVec (vdv c)))
  else (vdq, vdv)

/-- `getPointVelocityDerivatives`, `algorithm/kinematics-derivatives.hxx:646-694`, after the check that the reference
frame is `LOCAL` or `LOCAL_WORLD_ALIGNED`. -/
def getPointVelocityDerivatives (s : Sys K) (d : Data K) (j : ℕ) (placement : SE3 K) (lwa : Bool)
    (x : (ℕ → V3 K) × (ℕ → V3 K)) : (ℕ → V3 K) × (ℕ → V3 K) :=
  let oMp := d.oMi j * placement
  upLoop s.par (pointVelDerStep s d oMp (oMp.actInv (d.ov j)) lwa) s.n j x

/-- the output matrices of `getPointClassicAccelerationDerivatives` -/
structure PtAccDer (K : Type*) where
  v_dq : ℕ → V3 K
  a_dq : ℕ → V3 K
  a_dv : ℕ → V3 K
  a_da : ℕ → V3 K

/-- output matrices full of zeros -/
def PtAccDer.zero : PtAccDer K := ⟨fun _ => 0, fun _ => 0, fun _ => 0, fun _ => 0⟩

/-- `PointClassicAccelerationDerivativesBackwardStep::algo`, `algorithm/kinematics-derivatives.hxx:730-869`. -/
def pointAccDerStep (s : Sys K) (d : Data K) (oMp : SE3 K) (vp : Motion K) (ap : V3 K) (lwa : Bool) (i : ℕ)
    (x : PtAccDer K) : PtAccDer K :=
  let put := fun (m : ℕ → V3 K) (f : ℕ → V3 K) => putSeg m (s.iv i) (s.jnv i) (fun k => f (s.iv i + k))
  let as := fun c => oMp.actInv (d.J c)
  let x := { x with a_da := put x.a_da (fun c => (as c).lin) }
  let vtmp := oMp.actInv (d.ov (s.par i))
  let vs := fun c => vtmp.cross (as c)
  let x := if s.par i > 0 then { x with v_dq := put x.v_dq (fun c => (vs c).lin) }
    else { x with v_dq := put x.v_dq (fun _ => 0) }
  let vtmp := if s.par i > 0 then vtmp - vp else -vp
  let x := { x with a_dv := put x.a_dv (fun c => vtmp.ang.cross (as c).lin + vtmp.lin.cross (as c).ang) }
  let x := { x with a_dv := put x.a_dv (fun c => x.a_dv c
    + oMp.rot.tr.mulVec ((d.dJ c).lin + (d.dJ c).ang.cross oMp.trans)) }
  let x := { x with a_dv := put x.a_dv (fun c => x.a_dv c
    + (vp.ang.cross (as c).lin - vp.lin.cross (as c).ang)) }
  let x := if s.par i > 0 then
      let atmp := oMp.actInv (d.oa (s.par i))
      let x := { x with a_dq := put x.a_dq (fun c => atmp.ang.cross (as c).lin + atmp.lin.cross (as c).ang) }
      let x := { x with a_dq := put x.a_dq (fun c => x.a_dq c
        + (vtmp.ang.cross (vs c).lin + vtmp.lin.cross (vs c).ang)) }
      { x with a_dq := put x.a_dq (fun c => x.a_dq c
        + (vp.ang.cross (vs c).lin - vp.lin.cross (vs c).ang)) }
    else { x with a_dq := put x.a_dq (fun _ => 0) }
  if lwa then
    let x := { x with v_dq := put x.v_dq (fun c => oMp.rot.mulVec (x.v_dq c + (as c).ang.cross vp.lin)) }
    let x := { x with a_dq := put x.a_dq (fun c => oMp.rot.mulVec (x.a_dq c + (as c).ang.cross ap)) }
    let x := { x with a_dv := put x.a_dv (fun c => oMp.rot.mulVec (x.a_dv c)) }
    { x with a_da := put x.a_da (fun c => oMp.rot.mulVec (x.a_da c)) }
  else x

/-- `getPointClassicAccelerationDerivatives`, `algorithm/kinematics-derivatives.hxx:875-931`; the overload at 934-966
also copies `a_point_partial_da` to `v_point_partial_dv`. `classicAcceleration` is
`spatial/classic-acceleration.hpp:28-38`. -/
def getPointClassicAccelerationDerivatives (s : Sys K) (d : Data K) (j : ℕ) (placement : SE3 K) (lwa : Bool)
    (x : PtAccDer K) : PtAccDer K :=
  let oMp := d.oMi j * placement
  let vp := oMp.actInv (d.ov j)
  let sa := oMp.actInv (d.oa j)
  upLoop s.par (pointAccDerStep s d oMp vp (sa.lin + vp.ang.cross vp.lin) lwa) s.n j x

end Pin
