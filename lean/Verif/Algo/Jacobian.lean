import Verif.Algo.Kinematics
import Verif.Algo.Rows
import Verif.Model.Construction

/-!
# `algorithm/jacobian.hxx` and the Jacobians of `algorithm/frames.hxx`

A `6 × n` matrix is the function giving its columns. Models without mimic joints only: the branches for mimic
joints (`mimic_joint_supports`, `JointJacobian*MimicStep`) are not modelled here.
-/

namespace Pin
variable {K : Type*} [CommRing K]

/-- `JointJacobiansForwardStep::algo`, `algorithm/jacobian.hxx:37-61`. -/
def jacobianStep (s : Sys K) (q : ℕ → K) (i : ℕ) (d : Data K) : Data K :=
  let d := { d with joints := upd d.joints i ((s.jt i).calc (s.qs q i) (d.joints i)) }
  let d := { d with liMi := upd d.liMi i (s.pl i * (d.joints i).M) }
  let d := { d with oMi := upd d.oMi i (if s.par i > 0 then d.oMi (s.par i) * d.liMi i else d.liMi i) }
  { d with J := putSeg d.J (s.iv i) (s.jnv i) (fun k => (d.oMi i).act ((d.joints i).S k)) }

/-- `computeJointJacobians(model, data, q)`, `algorithm/jacobian.hxx:64-95`. -/
def computeJointJacobians (s : Sys K) (d : Data K) (q : ℕ → K) : Data K := fwd (jacobianStep s q) s.n d

/-- `computeJointJacobians(model, data)`, `algorithm/jacobian.hxx:99-137`: from the stored placements. -/
def computeJointJacobiansData (s : Sys K) (d : Data K) : Data K :=
  fwd (fun i d => { d with
    J := putSeg d.J (s.iv i) (s.jnv i) (fun k => (d.oMi i).act ((d.joints i).S k)) }) s.n d

/-- `v_out` for the column `v_in`, in the three cases of `details::translateJointJacobian`,
`algorithm/jacobian.hxx:213-281`. -/
def translateCol (placement : SE3 K) (v : Motion K) : RF → Motion K
  | .WORLD => v
  | .LOCAL_WORLD_ALIGNED => ⟨v.lin - placement.trans.cross v.ang, v.ang⟩
  | .LOCAL => placement.actInv v

/-- index of the last column of joint `i` (`idx_vExtendeds[i] + nvExtendeds[i] - 1`). For the universe,
`idx_vExtendeds[0] = nvExtendeds[0] = 0` (`multibody/model.hxx:25-40`). -/
def lastCol (s : Sys K) (i : ℕ) : ℤ := if i = 0 then -1 else (s.iv i : ℤ) + s.jnv i - 1

/-- `details::translateJointJacobian`, `algorithm/jacobian.hxx:169-283`. Columns that are not on the walk are
left as they are in `Jout`. -/
def translateJointJacobian (s : Sys K) (joint : ℕ) (rf : RF) (placement : SE3 K) (Jin Jout : ℕ → Motion K) :
    ℕ → Motion K :=
  rowLoop (parentsFromRow s) (fun j J => upd J j (translateCol placement (Jin j) rf)) (s.nv + 1)
    (lastCol s joint) Jout

/-- `getJointJacobian`, `algorithm/jacobian.hxx:311-326`. -/
def getJointJacobian (s : Sys K) (d : Data K) (joint : ℕ) (rf : RF) (J : ℕ → Motion K) : ℕ → Motion K :=
  translateJointJacobian s joint rf (d.oMi joint) d.J J

/-- `for (i = joint; i > 0; i = parents[i]) step(i)`; `fuel` bounds the number of turns, which is harmless as
parents come first (`upLoop_ind`). -/
def upLoop {D : Type*} (par : ℕ → ℕ) (step : ℕ → D → D) : ℕ → ℕ → D → D
  | 0, _, d => d
  | f + 1, i, d => if i > 0 then upLoop par step f (par i) (step i d) else d

/-- `JointJacobianLocalBackwardStep::algo`, `algorithm/jacobian.hxx:548-566`; the second component is the output
matrix. -/
def jacobianLocalStep (s : Sys K) (q : ℕ → K) (i : ℕ) (x : Data K × (ℕ → Motion K)) :
    Data K × (ℕ → Motion K) :=
  let d := x.1
  let d := { d with joints := upd d.joints i ((s.jt i).calc (s.qs q i) (d.joints i)) }
  let d := { d with liMi := upd d.liMi i (s.pl i * (d.joints i).M) }
  let d := { d with iMf := upd d.iMf (s.par i) (d.liMi i * d.iMf i) }
  (d, putSeg x.2 (s.iv i) (s.jnv i) (fun k => (d.iMf i).actInv ((d.joints i).S k)))

/-- `computeJointJacobian`, `algorithm/jacobian.hxx:621-665`. -/
def computeJointJacobian (s : Sys K) (d : Data K) (q : ℕ → K) (joint : ℕ) (J : ℕ → Motion K) :
    Data K × (ℕ → Motion K) :=
  upLoop s.par (jacobianLocalStep s q) s.n joint ({ d with iMf := upd d.iMf joint 1 }, J)

/-- `JointJacobiansTimeVariationForwardStep::algo`, `algorithm/jacobian.hxx:688-734`. -/
def jacobianTvStep (s : Sys K) (q v : ℕ → K) (i : ℕ) (d : Data K) : Data K :=
  let d := { d with joints := upd d.joints i ((s.jt i).calcV (s.qs q i) (s.vs v i) (d.joints i)) }
  let d := { d with v := upd d.v i (d.joints i).v }
  let d := { d with liMi := upd d.liMi i (s.pl i * (d.joints i).M) }
  let d :=
    if s.par i > 0 then
      { d with
        oMi := upd d.oMi i (d.oMi (s.par i) * d.liMi i)
        v := upd d.v i (d.v i + (d.liMi i).actInv (d.v (s.par i))) }
    else { d with oMi := upd d.oMi i (d.liMi i) }
  let d := { d with J := putSeg d.J (s.iv i) (s.jnv i) (fun k => (d.oMi i).act ((d.joints i).S k)) }
  let d := { d with ov := upd d.ov i ((d.oMi i).act (d.v i)) }
  { d with dJ := putSeg d.dJ (s.iv i) (s.jnv i) (fun k => (d.ov i).cross (d.J (s.iv i + k))) }

/-- `computeJointJacobiansTimeVariation`, `algorithm/jacobian.hxx:737-769`. -/
def computeJointJacobiansTimeVariation (s : Sys K) (d : Data K) (q v : ℕ → K) : Data K :=
  fwd (jacobianTvStep s q v) s.n d

/-- the second loop of `getJointJacobianTimeVariation` (`algorithm/jacobian.hxx:792-838`) and of
`getFrameJacobianTimeVariation` (`algorithm/frames.hxx:318-362`): `oMframe` is the placement of the frame,
`vf` its velocity in itself, `ov` the velocity of its joint in the world frame. -/
def addTv (s : Sys K) (d : Data K) (joint : ℕ) (rf : RF) (oMframe : SE3 K) (vf ov : Motion K)
    (dJ : ℕ → Motion K) : ℕ → Motion K :=
  match rf with
  | .LOCAL =>
    rowLoop (parentsFromRow s) (fun j X => upd X j (X j - vf.cross (oMframe.actInv (d.J j)))) (s.nv + 1)
      (lastCol s joint) dJ
  | .LOCAL_WORLD_ALIGNED =>
    rowLoop (parentsFromRow s) (fun j X => upd X j
        ⟨(X j).lin - (ov.lin + ov.ang.cross oMframe.trans).cross (d.J j).ang, (X j).ang⟩) (s.nv + 1)
      (lastCol s joint) dJ
  | .WORLD => dJ

/-- `getJointJacobianTimeVariation`, `algorithm/jacobian.hxx:771-843`. -/
def getJointJacobianTimeVariation (s : Sys K) (d : Data K) (joint : ℕ) (rf : RF) (dJ : ℕ → Motion K) :
    ℕ → Motion K :=
  addTv s d joint rf (d.oMi joint) (d.v joint) (d.ov joint)
    (translateJointJacobian s joint rf (d.oMi joint) d.dJ dJ)

/-! ## `algorithm/frames.hxx` -/

/-- `updateFramePlacements`, `algorithm/frames.hxx:15-35`. -/
def updateFramePlacements (frames : ℕ → Frame K) (nframes : ℕ) (d : Data K) : Data K :=
  fwd (fun i d => { d with
    oMf := upd d.oMf i (d.oMi (frames i).parentJoint * (frames i).placement) }) nframes d

/-- `updateFramePlacement`, `algorithm/frames.hxx:37-52`. -/
def updateFramePlacement (frames : ℕ → Frame K) (d : Data K) (f : ℕ) : Data K :=
  { d with oMf := upd d.oMf f (d.oMi (frames f).parentJoint * (frames f).placement) }

/-- the change of frame common to `getFrameVelocity` and `getFrameAcceleration`,
`algorithm/frames.hxx:70-99, 101-130`. -/
def inFrameAt (oMi placement : SE3 K) (m : Motion K) : RF → Motion K
  | .LOCAL => placement.actInv m
  | .WORLD => oMi.act m
  | .LOCAL_WORLD_ALIGNED =>
    ⟨oMi.rot.mulVec (m.lin + m.ang.cross placement.trans), oMi.rot.mulVec m.ang⟩

/-- `getFrameVelocity`, `algorithm/frames.hxx:71-98`. -/
def getFrameVelocity (d : Data K) (joint : ℕ) (placement : SE3 K) (rf : RF) : Motion K :=
  inFrameAt (d.oMi joint) placement (d.v joint) rf

/-- `getFrameAcceleration`, `algorithm/frames.hxx:101-130`. -/
def getFrameAcceleration (d : Data K) (joint : ℕ) (placement : SE3 K) (rf : RF) : Motion K :=
  inFrameAt (d.oMi joint) placement (d.a joint) rf

/-- `getFrameClassicalAcceleration`, `algorithm/frames.hxx:132-149`. -/
def getFrameClassicalAcceleration (d : Data K) (joint : ℕ) (placement : SE3 K) (rf : RF) : Motion K :=
  let vel := getFrameVelocity d joint placement rf
  let acc := getFrameAcceleration d joint placement rf
  ⟨acc.lin + vel.ang.cross vel.lin, acc.ang⟩

/-- `getFrameJacobian`, `algorithm/frames.hxx:151-175`. -/
def getFrameJacobian (s : Sys K) (d : Data K) (joint : ℕ) (placement : SE3 K) (rf : RF) (J : ℕ → Motion K) :
    ℕ → Motion K :=
  translateJointJacobian s joint rf (d.oMi joint * placement) d.J J

/-- `JointJacobianWorldForwardStep::algo_impl`, `algorithm/jacobian.hxx:363-387`. -/
def jacobianWorldStep (s : Sys K) (q : ℕ → K) (i : ℕ) (x : Data K × (ℕ → Motion K)) :
    Data K × (ℕ → Motion K) :=
  let d := fk0Step s q i x.1
  (d, putSeg x.2 (s.iv i) (s.jnv i) (fun k => (d.oMi i).act ((d.joints i).S k)))

/-- `JointJacobianLocalWorldAlignedForwardStep::algo_impl`, `algorithm/jacobian.hxx:477-493`. -/
def jacobianLwaStep (s : Sys K) (d : Data K) (oMf : SE3 K) (i : ℕ) (J : ℕ → Motion K) : ℕ → Motion K :=
  putSeg J (s.iv i) (s.jnv i)
    (fun k => SE3.act ⟨(d.oMi i).rot, (d.oMi i).trans - oMf.trans⟩ ((d.joints i).S k))

/-- `computeFrameJacobian`, `algorithm/frames.hxx:177-286`, for frame `f` of placement `placement` on joint
`joint`; `support` is `model.supports[joint]` (the universe comes first and is skipped). -/
def computeFrameJacobian (s : Sys K) (d : Data K) (q : ℕ → K) (support : List ℕ) (f joint : ℕ)
    (placement : SE3 K) (rf : RF) (J : ℕ → Motion K) : Data K × (ℕ → Motion K) :=
  match rf with
  | .WORLD => support.tail.foldl (fun x i => jacobianWorldStep s q i x) (d, J)
  | .LOCAL_WORLD_ALIGNED =>
    let d := support.tail.foldl (fun d i => fk0Step s q i d) d
    let d := { d with oMf := upd d.oMf f (d.oMi joint * placement) }
    (d, support.tail.foldl (fun J i => jacobianLwaStep s d (d.oMf f) i J) J)
  | .LOCAL =>
    upLoop s.par (jacobianLocalStep s q) s.n joint ({ d with iMf := upd d.iMf joint placement }, J)

/-- `getFrameJacobianTimeVariation`, `algorithm/frames.hxx:288-370`. -/
def getFrameJacobianTimeVariation (s : Sys K) (d : Data K) (f joint : ℕ) (placement : SE3 K) (rf : RF)
    (dJ : ℕ → Motion K) : Data K × (ℕ → Motion K) :=
  let d := { d with oMf := upd d.oMf f (d.oMi joint * placement) }
  (d, addTv s d joint rf (d.oMf f) (placement.actInv (d.v joint)) (d.ov joint)
    (translateJointJacobian s joint rf (d.oMf f) d.dJ dJ))

end Pin
