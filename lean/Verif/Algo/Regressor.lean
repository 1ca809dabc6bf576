import Verif.Algo.Jacobian
import Verif.Spatial.Parameters

/-! # `algorithm/regressor.hxx` (models without mimic joints) -/

namespace Pin
open Finset
variable {K : Type*}

/-- the fields of `DataTpl` written by the regressor algorithms (`multibody/data.hpp:415-436`): matrices by
columns (`bodyRegressor`, 6×10, and `staticRegressor`, 3×4(njoints-1)), row vectors of size 10(njoints-1), and the
nv×10(njoints-1) matrix `jointTorqueRegressor`. -/
structure RegData (K : Type*) where
  d : Data K
  bodyRegressor : ℕ → Force K
  jointTorqueRegressor : ℕ → ℕ → K
  staticRegressor : ℕ → V3 K
  kineticEnergyRegressor : ℕ → K
  potentialEnergyRegressor : ℕ → K

/-- column `c` of a 3×3 matrix -/
def M3.col (A : M3 K) : ℕ → V3 K
  | 0 => ⟨A.m00, A.m10, A.m20⟩
  | 1 => ⟨A.m01, A.m11, A.m21⟩
  | _ => ⟨A.m02, A.m12, A.m22⟩

/-- column `c` of a 6×6 matrix acting on motions -/
def M6.col (A : M6 K) (c : ℕ) : Motion K :=
  if c < 3 then ⟨A.ll.col c, A.al.col c⟩ else ⟨A.la.col (c - 3), A.aa.col (c - 3)⟩

section ring
variable [CommRing K]

/-- `crossBigL`, `algorithm/regressor.hxx:220-231`: the six columns. -/
def crossBigL (v : V3 K) : ℕ → V3 K
  | 0 => ⟨0, v.z * v.x, -v.y * v.x⟩
  | 1 => ⟨-v.z * v.x, v.z * v.y, v.x * v.x - v.y * v.y⟩
  | 2 => ⟨-v.z * v.y, 0, v.y * v.x⟩
  | 3 => ⟨v.y * v.x, v.z * v.z - v.x * v.x, -v.z * v.y⟩
  | 4 => ⟨v.y * v.y - v.z * v.z, -v.y * v.x, v.z * v.x⟩
  | _ => ⟨v.z * v.y, -v.z * v.x, 0⟩

/-- `addBigL`, `algorithm/regressor.hxx:203-217`: what is added to each of the six columns. -/
def bigL (w : V3 K) : ℕ → V3 K
  | 0 => ⟨w.x, 0, 0⟩
  | 1 => ⟨w.y, w.x, 0⟩
  | 2 => ⟨0, w.y, 0⟩
  | 3 => ⟨w.z, 0, w.x⟩
  | 4 => ⟨0, w.z, w.y⟩
  | _ => ⟨0, 0, w.z⟩

/-- `bodyRegressor(v, a, regressor)`, `algorithm/regressor.hxx:234-271`, by columns. -/
def bodyReg (v a : Motion K) (c : ℕ) : Force K :=
  let acc := a.lin + v.ang.cross v.lin
  if c = 0 then ⟨acc, 0⟩
  else if c < 4 then
    ⟨((Sym3.skewSquare v.ang).matrix + M3.skew a.ang).col (c - 1), (M3.skew (-acc)).col (c - 1)⟩
  else ⟨0, crossBigL v.ang (c - 4) + bigL a.ang (c - 4)⟩

/-- `jointBodyRegressor`, `algorithm/regressor.hxx:293-307`. -/
def jointBodyRegressor (x : RegData K) (i : ℕ) : RegData K :=
  { x with bodyRegressor := putSeg x.bodyRegressor 0 10 (bodyReg (x.d.v i) (x.d.a_gf i)) }

/-- `frameBodyRegressor`, `algorithm/regressor.hxx:309-331`, for a frame with this parent joint and placement. -/
def frameBodyRegressor (x : RegData K) (parent : ℕ) (placement : SE3 K) : RegData K :=
  { x with
    bodyRegressor := putSeg x.bodyRegressor 0 10
      (bodyReg (placement.actInv (x.d.v parent)) (placement.actInv (x.d.a_gf parent))) }

/-- `JointTorqueRegressorForwardStep::algo`, `algorithm/regressor.hxx:360-386`. -/
def jtrFwd (s : Sys K) (q v a : ℕ → K) (i : ℕ) (d : Data K) : Data K :=
  let d := { d with joints := upd d.joints i ((s.jt i).calcV (s.qs q i) (s.vs v i) (d.joints i)) }
  let d := { d with liMi := upd d.liMi i (s.pl i * (d.joints i).M) }
  let d := { d with v := upd d.v i (d.joints i).v }
  let d := if s.par i > 0 then
      { d with v := upd d.v i (d.v i + (d.liMi i).actInv (d.v (s.par i))) }
    else d
  let d := { d with a_gf := upd d.a_gf i ((d.joints i).c + (d.v i).cross (d.joints i).v) }
  let d := { d with a_gf := upd d.a_gf i (d.a_gf i + comb (d.joints i).S (s.jnv i) (s.vs a i)) }
  { d with a_gf := upd d.a_gf i (d.a_gf i + (d.liMi i).actInv (d.a_gf (s.par i))) }

/-- `JointTorqueRegressorBackwardStep::algo`, `algorithm/regressor.hxx:401-420`; `col` is `col_idx`. The six rows of
the body regressor are transformed in place, column by column (`spatial/act-on-set.hxx`). -/
def jtrBwd (s : Sys K) (col : ℕ) (i : ℕ) (x : RegData K) : RegData K :=
  let x := { x with
    jointTorqueRegressor := putBlock x.jointTorqueRegressor (s.iv i) (10 * (col - 1)) (s.jnv i) 10
      (fun r c => ((x.d.joints i).S r).dot (x.bodyRegressor c)) }
  if s.par i > 0 then
    { x with bodyRegressor := putSeg x.bodyRegressor 0 10 (fun c => (x.d.liMi i).actF (x.bodyRegressor c)) }
  else x

/-- `computeJointTorqueRegressor`, `algorithm/regressor.hxx:423-470`. -/
def computeJointTorqueRegressor (s : Sys K) (x : RegData K) (q v a : ℕ → K) : RegData K :=
  let x := { x with
    d := { x.d with v := upd x.d.v 0 0, a_gf := upd x.d.a_gf 0 (-s.grav) }
    jointTorqueRegressor := fun _ _ => 0 }
  let x := { x with d := fwd (jtrFwd s q v a) s.n x.d }
  bwd (fun i x => upLoop s.par (jtrBwd s i) s.n i (jointBodyRegressor x i)) s.n x

/-- the loop of `computeJointKinematicRegressorGeneric`, `algorithm/regressor.hxx:45-67`, one turn -/
def kinRegStep (s : Sys K) (oMi : ℕ → SE3 K) (rf : RF) (O : SE3 K) (i : ℕ) (R : ℕ → Motion K) : ℕ → Motion K :=
  let oMp := oMi (s.par i) * s.pl i
  let iMp : SE3 K := match rf with
    | .LOCAL => O.actInvSE3 oMp
    | .LOCAL_WORLD_ALIGNED => ⟨oMp.rot, oMp.trans - O.trans⟩
    | .WORLD => oMp
  putSeg R (6 * (i - 1)) 6 iMp.toActionMatrix.col

/-- `computeJointKinematicRegressor(model, data, joint, rf, placement, kinematic_regressor)`,
`algorithm/regressor.hxx:18-68, 88-110`; the version without placement (`71-86`) is the one with the identity, up to the
product `oMi[joint] * Identity`, and `computeFrameKinematicRegressor` (`110-133`) the one with the frame's parent joint
and placement (it also writes `data.oMf[frame]`). `R` is the previous content of the output. -/
def computeJointKinematicRegressor (s : Sys K) (d : Data K) (joint : ℕ) (rf : RF) (placement : SE3 K)
    (_R : ℕ → Motion K) : ℕ → Motion K :=
  upLoop s.par (kinRegStep s d.oMi rf (d.oMi joint * placement)) s.n joint (fun _ => 0)
end ring

section field
variable [Field K]

/-- `computeStaticRegressor`, `algorithm/regressor.hxx:137-178`. -/
def computeStaticRegressor (s : Sys K) (x : RegData K) (q : ℕ → K) : RegData K :=
  let x := { x with d := forwardKinematics s x.d q }
  let mass := fwd (fun i m => m + (s.Y i).mass) s.n 0
  let mass_inv := 1 / mass
  { x with
    staticRegressor := fwd (fun i R => putSeg R ((i - 1) * 4) 4 (fun c =>
      mass_inv • (if c = 0 then (x.d.oMi i).trans else (x.d.oMi i).rot.col (c - 1)))) s.n x.staticRegressor }

/-- the ten entries written by `computeKineticEnergyRegressor`, `algorithm/regressor.hxx:506-515` -/
def kinEntries (v : Motion K) : ℕ → K
  | 0 => 1 / 2 * v.lin.dot v.lin
  | 1 => -v.ang.y * v.lin.z + v.ang.z * v.lin.y
  | 2 => v.ang.x * v.lin.z - v.ang.z * v.lin.x
  | 3 => -v.ang.x * v.lin.y + v.ang.y * v.lin.x
  | 4 => 1 / 2 * v.ang.x * v.ang.x
  | 5 => v.ang.x * v.ang.y
  | 6 => 1 / 2 * v.ang.y * v.ang.y
  | 7 => v.ang.x * v.ang.z
  | 8 => v.ang.y * v.ang.z
  | _ => 1 / 2 * v.ang.z * v.ang.z

/-- `computeKineticEnergyRegressor`, `algorithm/regressor.hxx:472-519`. -/
def computeKineticEnergyRegressor (s : Sys K) (x : RegData K) (q v : ℕ → K) : RegData K :=
  let x := { x with d := forwardKinematicsV s x.d q v }
  { x with
    kineticEnergyRegressor :=
      fwd (fun i R => putSeg R (10 * (i - 1)) 10 (kinEntries (x.d.v i))) s.n (fun _ => 0) }

/-- the entries written by `computePotentialEnergyRegressor`, `algorithm/regressor.hxx:552-553`: only the first four -/
def potEntries (O : SE3 K) (g : V3 K) : ℕ → K
  | 0 => g.dot O.trans
  | 1 => (O.rot.tr.mulVec g).x
  | 2 => (O.rot.tr.mulVec g).y
  | _ => (O.rot.tr.mulVec g).z

/-- `computePotentialEnergyRegressor`, `algorithm/regressor.hxx:521-557`. -/
def computePotentialEnergyRegressor (s : Sys K) (x : RegData K) (q : ℕ → K) : RegData K :=
  let x := { x with d := forwardKinematics s x.d q }
  { x with
    potentialEnergyRegressor :=
      fwd (fun i R => putSeg R (10 * (i - 1)) 4 (potEntries (x.d.oMi i) (-s.grav.lin))) s.n (fun _ => 0) }
end field

end Pin
