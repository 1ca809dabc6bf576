import Verif.Algo.Crba
import Verif.Algo.Kinematics
import Verif.Algo.Jacobian

/-! # `algorithm/center-of-mass.hxx`

Mimic joints only matter for the Jacobians (`jointCols`/`jointExtendedModelCols`); the Jacobians are modelled for
models without mimic joints. -/

namespace Pin
open Finset
variable {K : Type*} [Field K]

/-- `v /= k` -/
def V3.divS (v : V3 K) (k : K) : V3 K := ⟨v.x / k, v.y / k, v.z / k⟩

/-- `computeTotalMass(model)`, `algorithm/center-of-mass.hxx:17-26`. -/
def computeTotalMass (s : Sys K) : K := fwd (fun i m => m + (s.Y i).mass) s.n 0

/-- `computeTotalMass(model, data)`, `algorithm/center-of-mass.hxx:28-35`. -/
def computeTotalMassD (s : Sys K) (d : Data K) : Data K :=
  { d with mass := upd d.mass 0 (computeTotalMass s) }

/-- `computeSubtreeMasses`, `algorithm/center-of-mass.hxx:37-56`. -/
def computeSubtreeMasses (s : Sys K) (d : Data K) : Data K :=
  let d := { d with mass := upd d.mass 0 0 }
  let d := fwd (fun i (d : Data K) => { d with mass := upd d.mass i (s.Y i).mass }) s.n d
  bwd (fun i (d : Data K) => { d with mass := upd d.mass (s.par i) (d.mass (s.par i) + d.mass i) }) s.n d

/-- `KinematicLevel`, `multibody/fwd.hpp` -/
inductive KLevel
  | POSITION
  | VELOCITY
  | ACCELERATION
deriving DecidableEq

/-- `kinematic_level >= VELOCITY` -/
def KLevel.vel : KLevel → Bool
  | .POSITION => false
  | _ => true
/-- `kinematic_level >= ACCELERATION` -/
def KLevel.acc : KLevel → Bool
  | .ACCELERATION => true
  | _ => false

/-- forward loop of `centerOfMass`, `algorithm/center-of-mass.hxx:148-169` -/
def comFwd (s : Sys K) (lvl : KLevel) (i : ℕ) (d : Data K) : Data K :=
  let m := (s.Y i).mass
  let lever := (s.Y i).lever
  let d := { d with mass := upd d.mass i m }
  let d := { d with com := upd d.com i (m • lever) }
  let d := if lvl.vel then
      { d with vcom := upd d.vcom i (m • ((d.v i).ang.cross lever + (d.v i).lin)) } else d
  if lvl.acc then
    { d with
      acom := upd d.acom i (m • ((d.a i).ang.cross lever + (d.a i).lin) + (d.v i).ang.cross (d.vcom i)) }
  else d

/-- backward loop of `centerOfMass`, `algorithm/center-of-mass.hxx:172-197` -/
def comBwd (s : Sys K) (lvl : KLevel) (sub : Bool) (i : ℕ) (d : Data K) : Data K :=
  let p := s.par i
  let d := { d with mass := upd d.mass p (d.mass p + d.mass i) }
  let d := { d with
    com := upd d.com p (d.com p + ((d.liMi i).rot.mulVec (d.com i) + d.mass i • (d.liMi i).trans)) }
  let d := if lvl.vel then
      { d with vcom := upd d.vcom p (d.vcom p + (d.liMi i).rot.mulVec (d.vcom i)) } else d
  let d := if lvl.acc then
      { d with acom := upd d.acom p (d.acom p + (d.liMi i).rot.mulVec (d.acom i)) } else d
  if sub then
    let d := { d with com := upd d.com i ((d.com i).divS (d.mass i)) }
    let d := if lvl.vel then { d with vcom := upd d.vcom i ((d.vcom i).divS (d.mass i)) } else d
    if lvl.acc then { d with acom := upd d.acom i ((d.acom i).divS (d.mass i)) } else d
  else d

/-- `centerOfMass(model, data, kinematic_level, computeSubtreeComs)`, `algorithm/center-of-mass.hxx:116-207`. -/
def centerOfMassD (s : Sys K) (d : Data K) (lvl : KLevel) (sub : Bool) : Data K :=
  let d := { d with mass := upd d.mass 0 0, com := upd d.com 0 0 }
  let d := if lvl.vel then { d with vcom := upd d.vcom 0 0 } else d
  let d := if lvl.acc then { d with acom := upd d.acom 0 0 } else d
  let d := fwd (comFwd s lvl) s.n d
  let d := bwd (comBwd s lvl sub) s.n d
  let d := { d with com := upd d.com 0 ((d.com 0).divS (d.mass 0)) }
  let d := if lvl.vel then { d with vcom := upd d.vcom 0 ((d.vcom 0).divS (d.mass 0)) } else d
  if lvl.acc then { d with acom := upd d.acom 0 ((d.acom 0).divS (d.mass 0)) } else d

/-- `centerOfMass(model, data, q)`, `algorithm/center-of-mass.hxx:59-74`. -/
def centerOfMass (s : Sys K) (d : Data K) (q : ℕ → K) (sub : Bool) : Data K :=
  centerOfMassD s (forwardKinematics s d q) .POSITION sub
/-- `centerOfMass(model, data, q, v)`, `algorithm/center-of-mass.hxx:76-93`. -/
def centerOfMassV (s : Sys K) (d : Data K) (q v : ℕ → K) (sub : Bool) : Data K :=
  centerOfMassD s (forwardKinematicsV s d q v) .VELOCITY sub
/-- `centerOfMass(model, data, q, v, a)`, `algorithm/center-of-mass.hxx:95-114`. -/
def centerOfMassA (s : Sys K) (d : Data K) (q v a : ℕ → K) (sub : Bool) : Data K :=
  centerOfMassD s (forwardKinematicsA s d q v a) .ACCELERATION sub

/-- `getComFromCrba`, `algorithm/center-of-mass.hxx:209-218`. -/
def getComFromCrba (d : Data K) : Data K :=
  { d with com := upd d.com 0 ((d.liMi 1).actP (d.oYcrb 1).lever) }

/-- `JacobianCenterOfMassBackwardStep::algo`, `algorithm/center-of-mass.hxx:240-272`. The pair is `data` and the
matrix that receives the result. -/
def jacComBwd (s : Sys K) (sub : Bool) (i : ℕ) (x : Data K × (ℕ → V3 K)) : Data K × (ℕ → V3 K) :=
  let p := s.par i
  let d := x.1
  let d := { d with com := upd d.com p (d.com p + d.com i) }
  let d := { d with mass := upd d.mass p (d.mass p + d.mass i) }
  let d := { d with J := putSeg d.J (s.iv i) (s.jnv i) (fun k => (d.oMi i).act ((d.joints i).S k)) }
  let J := putSeg x.2 (s.iv i) (s.jnv i) (fun k => x.2 (s.iv i + k)
    + (d.mass i • (d.J (s.iv i + k)).lin - (d.com i).cross (d.J (s.iv i + k)).ang))
  (if sub then { d with com := upd d.com i ((d.com i).divS (d.mass i)) } else d, J)

/-- first loop of `jacobianCenterOfMass`, `algorithm/center-of-mass.hxx:311-318` -/
def jacComFwd (s : Sys K) (i : ℕ) (d : Data K) : Data K :=
  let d := { d with mass := upd d.mass i (s.Y i).mass }
  { d with com := upd d.com i ((s.Y i).mass • (d.oMi i).actP (s.Y i).lever) }

/-- `jacobianCenterOfMass(model, data, computeSubtreeComs)`, `algorithm/center-of-mass.hxx:291-334`. -/
def jacobianCenterOfMassD (s : Sys K) (d : Data K) (sub : Bool) : Data K :=
  let d := { d with com := upd d.com 0 0, mass := upd d.mass 0 0 }
  let d := fwd (jacComFwd s) s.n d
  let x := bwd (jacComBwd s sub) s.n (d, fun _ => 0)
  let d := x.1
  let d := { d with com := upd d.com 0 ((d.com 0).divS (d.mass 0)) }
  { d with Jcom := fun r => (x.2 r).divS (d.mass 0) }

/-- `jacobianCenterOfMass(model, data, q)`, `algorithm/center-of-mass.hxx:276-289`. -/
def jacobianCenterOfMass (s : Sys K) (d : Data K) (q : ℕ → K) (sub : Bool) : Data K :=
  jacobianCenterOfMassD s (forwardKinematics s d q) sub

/-- `JacobianSubtreeCenterOfMassBackwardStep::algo`, `algorithm/center-of-mass.hxx:352-379`. -/
def jacSubComBwd (s : Sys K) (root i : ℕ) (x : Data K × (ℕ → V3 K)) : Data K × (ℕ → V3 K) :=
  let d := x.1
  let d := { d with J := putSeg d.J (s.iv i) (s.jnv i) (fun k => (d.oMi i).act ((d.joints i).S k)) }
  (d, putSeg x.2 (s.iv i) (s.jnv i) (fun k => x.2 (s.iv i + k)
    + ((d.J (s.iv i + k)).lin - (d.com root).cross (d.J (s.iv i + k)).ang)))

/-- `jacobianSubtreeCenterOfMass(model, data, rootSubtreeId, res)`, `algorithm/center-of-mass.hxx:400-491`; `subtree` is
`model.subtrees[rootSubtreeId]`, and `none` the exception thrown when the mass is not positive (real scalars). -/
def jacobianSubtreeCenterOfMassD [LinearOrder K] (s : Sys K) (d : Data K) (subtree : List ℕ) (root : ℕ)
    (res : ℕ → V3 K) : Option (Data K × (ℕ → V3 K)) :=
  let d := if root = 0 then { d with mass := upd d.mass 0 0, com := upd d.com 0 0 } else d
  let d := subtree.foldl (fun d i => jacComFwd s i d) d
  let d := { d with Jcom := fun _ => 0 }
  let x := subtree.foldr (jacComBwd s true) (d, res)
  if 0 < x.1.mass root then
    let inv := 1 / x.1.mass root
    if root = 0 then some (x.1, fun r => inv • x.2 r)
    else
      let J := putSeg x.2 (s.iv root) (s.nvSub root) (fun k => inv • x.2 (s.iv root + k))
      some (upLoop s.par (jacSubComBwd s root) s.n (s.par root) (x.1, J))
  else none

/-- `jacobianSubtreeCenterOfMass(model, data, q, rootSubtreeId, res)`, `algorithm/center-of-mass.hxx:383-398`. -/
def jacobianSubtreeCenterOfMass [LinearOrder K] (s : Sys K) (d : Data K) (q : ℕ → K) (subtree : List ℕ) (root : ℕ)
    (res : ℕ → V3 K) : Option (Data K × (ℕ → V3 K)) :=
  jacobianSubtreeCenterOfMassD s (forwardKinematics s d q) subtree root res

/-- `getJacobianSubtreeCenterOfMass`, `algorithm/center-of-mass.hxx:493-539`. -/
def getJacobianSubtreeCenterOfMass (s : Sys K) (d : Data K) (root : ℕ) (res : ℕ → V3 K) : ℕ → V3 K :=
  if root = 0 then d.Jcom
  else
    let ratio := d.mass 0 / d.mass root
    let J := putSeg res (s.iv root) (s.nvSub root) (fun k => ratio • d.Jcom (s.iv root + k))
    rowLoop (parentsFromRow s)
      (fun j J => upd J j ((d.J j).lin - (d.com root).cross (d.J j).ang))
      (s.nv + 1) (parentsFromRow s (s.iv root)) J

/-- `getJacobianComFromCrba`, `algorithm/center-of-mass.hxx:541-556`. -/
def getJacobianComFromCrba (d : Data K) : Data K :=
  let d := { d with mass := upd d.mass 0 (d.oYcrb 0).mass, com := upd d.com 0 (d.oYcrb 0).lever }
  { d with Jcom := fun r => (d.Ag r).lin.divS (d.mass 0) }

end Pin
