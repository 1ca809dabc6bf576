import Verif.Algo.Kinematics

/-! # Change of reference frame and classic acceleration

Model of `algorithm/utils/motion.hpp`, `algorithm/utils/force.hpp` and
`spatial/classic-acceleration.hpp`. Input and output are distinct objects (the code writes
`noalias()` products, which exclude the same object). -/

namespace Pin
variable {K : Type*} [CommRing K]

/-- `changeReferenceFrame` on motions, `algorithm/utils/motion.hpp:19-73`, test by test. -/
def changeRFM (placement : SE3 K) (m : Motion K) (rfIn rfOut : RF) : Motion K :=
  if rfIn = rfOut then m
  else if rfIn = .LOCAL ∧ rfOut = .WORLD then placement.act m
  else if rfIn = .WORLD ∧ rfOut = .LOCAL then placement.actInv m
  else if rfIn = .LOCAL ∧ rfOut = .LOCAL_WORLD_ALIGNED then
    ⟨placement.rot.mulVec m.lin, placement.rot.mulVec m.ang⟩
  else if rfIn = .LOCAL_WORLD_ALIGNED ∧ rfOut = .LOCAL then
    ⟨placement.rot.tr.mulVec m.lin, placement.rot.tr.mulVec m.ang⟩
  else if rfIn = .WORLD ∧ rfOut = .LOCAL_WORLD_ALIGNED then
    ⟨m.lin + m.ang.cross placement.trans, m.ang⟩
  else ⟨m.lin - m.ang.cross placement.trans, m.ang⟩

/-- `changeReferenceFrame` on forces, `algorithm/utils/force.hpp:18-72`, test by test. -/
def changeRFF (placement : SE3 K) (f : Force K) (rfIn rfOut : RF) : Force K :=
  if rfIn = rfOut then f
  else if rfIn = .LOCAL ∧ rfOut = .WORLD then placement.actF f
  else if rfIn = .WORLD ∧ rfOut = .LOCAL then placement.actInvF f
  else if rfIn = .LOCAL ∧ rfOut = .LOCAL_WORLD_ALIGNED then
    ⟨placement.rot.mulVec f.lin, placement.rot.mulVec f.ang⟩
  else if rfIn = .LOCAL_WORLD_ALIGNED ∧ rfOut = .LOCAL then
    ⟨placement.rot.tr.mulVec f.lin, placement.rot.tr.mulVec f.ang⟩
  else if rfIn = .WORLD ∧ rfOut = .LOCAL_WORLD_ALIGNED then
    ⟨f.lin, f.ang + f.lin.cross placement.trans⟩
  else ⟨f.lin, f.ang - f.lin.cross placement.trans⟩

/-- `classicAcceleration(v, a)`, `spatial/classic-acceleration.hpp:27-35, 49-59`. -/
def classicAcc (v a : Motion K) : V3 K := a.lin + v.ang.cross v.lin

/-- `classicAcceleration(v, a, placement)`, `spatial/classic-acceleration.hpp:77-102, 117-127`. -/
def classicAccAt (v a : Motion K) (placement : SE3 K) : V3 K :=
  let linVelB := v.lin + v.ang.cross placement.trans
  let linAccB := a.lin + v.ang.cross linVelB
  placement.rot.tr.mulVec (linAccB - placement.trans.cross a.ang)
end Pin
