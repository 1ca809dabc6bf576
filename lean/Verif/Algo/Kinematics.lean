import Verif.Algo.Data

/-! # `algorithm/kinematics.hxx` -/

namespace Pin
variable {K : Type*} [CommRing K]

/-- `updateGlobalPlacements`, `algorithm/kinematics.hxx:15-33`. -/
def updateGlobalPlacements (s : Sys K) (d : Data K) : Data K :=
  fwd (fun i d => { d with
    oMi := upd d.oMi i (if s.par i > 0 then d.oMi (s.par i) * d.liMi i else d.liMi i) }) s.n d

/-- `ForwardKinematicZeroStep::algo`, `algorithm/kinematics.hxx:51-72`. -/
def fk0Step (s : Sys K) (q : ℕ → K) (i : ℕ) (d : Data K) : Data K :=
  let d := { d with joints := upd d.joints i ((s.jt i).calc (s.qs q i) (d.joints i)) }
  let d := { d with liMi := upd d.liMi i (s.pl i * (d.joints i).M) }
  { d with oMi := upd d.oMi i (if s.par i > 0 then d.oMi (s.par i) * d.liMi i else d.liMi i) }

/-- `forwardKinematics(model, data, q)`, `algorithm/kinematics.hxx:75-97`. -/
def forwardKinematics (s : Sys K) (d : Data K) (q : ℕ → K) : Data K := fwd (fk0Step s q) s.n d

/-- `ForwardKinematicFirstStep::algo`, `algorithm/kinematics.hxx:120-146`. -/
def fk1Step (s : Sys K) (q v : ℕ → K) (i : ℕ) (d : Data K) : Data K :=
  let d := { d with joints := upd d.joints i ((s.jt i).calcV (s.qs q i) (s.vs v i) (d.joints i)) }
  let d := { d with v := upd d.v i (d.joints i).v }
  let d := { d with liMi := upd d.liMi i (s.pl i * (d.joints i).M) }
  if s.par i > 0 then
    { d with
      oMi := upd d.oMi i (d.oMi (s.par i) * d.liMi i)
      v := upd d.v i (d.v i + (d.liMi i).actInv (d.v (s.par i))) }
  else { d with oMi := upd d.oMi i (d.liMi i) }

/-- `forwardKinematics(model, data, q, v)`, `algorithm/kinematics.hxx:149-179`. -/
def forwardKinematicsV (s : Sys K) (d : Data K) (q v : ℕ → K) : Data K :=
  fwd (fk1Step s q v) s.n { d with v := upd d.v 0 0 }

/-- `ForwardKinematicSecondStep::algo`, `algorithm/kinematics.hxx:208-239`. -/
def fk2Step (s : Sys K) (q v a : ℕ → K) (i : ℕ) (d : Data K) : Data K :=
  let d := fk1Step s q v i d
  let d := { d with a := upd d.a i (comb (d.joints i).S (s.jnv i) (s.vs a i) + (d.joints i).c
    + (d.v i).cross (d.joints i).v) }
  { d with a := upd d.a i (d.a i + (d.liMi i).actInv (d.a (s.par i))) }

/-- `forwardKinematics(model, data, q, v, a)`, `algorithm/kinematics.hxx:242-278`. -/
def forwardKinematicsA (s : Sys K) (d : Data K) (q v a : ℕ → K) : Data K :=
  fwd (fk2Step s q v a) s.n { d with v := upd d.v 0 0, a := upd d.a 0 0 }

/-- `ReferenceFrame`, `multibody/fwd.hpp`. -/
inductive RF
  | WORLD
  | LOCAL
  | LOCAL_WORLD_ALIGNED
deriving DecidableEq

/-- a placement with the same rotation and no translation (`SE3(R, Zero)`) -/
def SE3.onlyRot (M : SE3 K) : SE3 K := ⟨M.rot, 0⟩

/-- the change of frame common to `getVelocity` and `getAcceleration`,
`algorithm/kinematics.hxx:324-346, 348-370`: `LOCAL` returns `m`, `WORLD` returns `oMi.act(m)`,
`LOCAL_WORLD_ALIGNED` rotates the linear and angular parts. -/
def inFrame (oM : SE3 K) (m : Motion K) : RF → Motion K
  | .LOCAL => m
  | .WORLD => oM.act m
  | .LOCAL_WORLD_ALIGNED => ⟨oM.rot.mulVec m.lin, oM.rot.mulVec m.ang⟩

/-- `getVelocity`, `algorithm/kinematics.hxx:324-346`. -/
def getVelocity (d : Data K) (j : ℕ) (rf : RF) : Motion K := inFrame (d.oMi j) (d.v j) rf

/-- `getAcceleration`, `algorithm/kinematics.hxx:348-370`. -/
def getAcceleration (d : Data K) (j : ℕ) (rf : RF) : Motion K := inFrame (d.oMi j) (d.a j) rf

/-- `getClassicalAcceleration`, `algorithm/kinematics.hxx`: the acceleration with
`linear += angular_velocity × linear_velocity`, both in the same reference frame. -/
def getClassicalAcceleration (d : Data K) (j : ℕ) (rf : RF) : Motion K :=
  let vel := getVelocity d j rf
  let acc := getAcceleration d j rf
  ⟨acc.lin + vel.ang.cross vel.lin, acc.ang⟩

/-- `getRelativePlacement` with `Convention::WORLD`, `algorithm/kinematics.hxx:283-330`. -/
def getRelativePlacementWorld (d : Data K) (i j : ℕ) : SE3 K := (d.oMi i).actInvSE3 (d.oMi j)

end Pin
