import Verif.Algo.Centroidal
import Verif.Algo.RneaDerivatives

/-!
# `algorithm/centroidal-derivatives.hxx` and `algorithm/center-of-mass-derivatives.hxx`

Models without mimic joints (`assert(model.check(MimicChecker()))`). A `6 × nv` or `3 × nv` output matrix is the function
giving its columns; what it holds before the call is an argument. The output matrices are different objects and are not
members of the `Data`.
-/

namespace Pin
open Finset
variable {K : Type*}

section field
variable [Field K]

/-- `CentroidalDynDerivativesForwardStep::algo`, `algorithm/centroidal-derivatives.hxx:49-122`; `addForceCrossMatrix`
(124-135) is the same function as in `rnea.hxx`. -/
def cdFwd (s : Sys K) (q v a : ℕ → K) (i : ℕ) (d : Data K) : Data K :=
  let d := { d with joints := upd d.joints i ((s.jt i).calcV (s.qs q i) (s.vs v i) (d.joints i)) }
  let d := { d with liMi := upd d.liMi i (s.pl i * (d.joints i).M) }
  let d := { d with v := upd d.v i (d.joints i).v }
  let d := if s.par i > 0 then
      let d := { d with oMi := upd d.oMi i (d.oMi (s.par i) * d.liMi i) }
      { d with v := upd d.v i (d.v i + (d.liMi i).actInv (d.v (s.par i))) }
    else { d with oMi := upd d.oMi i (d.liMi i) }
  let d := { d with a := upd d.a i (comb (d.joints i).S (s.jnv i) (s.vs a i) + (d.joints i).c
    + (d.v i).cross (d.joints i).v) }
  let d := if s.par i > 0 then
      { d with a := upd d.a i (d.a i + (d.liMi i).actInv (d.a (s.par i))) } else d
  let d := { d with oYcrb := upd d.oYcrb i ((s.Y i).act (d.oMi i)) }
  let d := { d with ov := upd d.ov i ((d.oMi i).act (d.v i)) }
  let d := { d with oa := upd d.oa i ((d.oMi i).act (d.a i)) }
  let d := { d with oh := upd d.oh i ((d.oYcrb i).mul (d.ov i)) }
  let d := { d with of := upd d.of i ((d.oYcrb i).mul (d.oa i) + (d.ov i).crossF (d.oh i)) }
  let put := fun (m : ℕ → Motion K) (f : ℕ → Motion K) => putSeg m (s.iv i) (s.jnv i) (fun k => f (s.iv i + k))
  let d := { d with J := putSeg d.J (s.iv i) (s.jnv i) (fun k => (d.oMi i).act ((d.joints i).S k)) }
  let d := { d with dJ := put d.dJ (fun c => (d.ov i).cross (d.J c)) }
  let d := { d with dAdq := put d.dAdq (fun c => (d.oa (s.par i)).cross (d.J c)) }
  let d := { d with dAdv := put d.dAdv (fun c => d.dJ c) }
  let d := if s.par i > 0 then
      let d := { d with dVdq := put d.dVdq (fun c => (d.ov (s.par i)).cross (d.J c)) }
      let d := { d with dAdq := put d.dAdq (fun c => d.dAdq c + (d.ov (s.par i)).cross (d.dVdq c)) }
      { d with dAdv := put d.dAdv (fun c => d.dAdv c + d.dVdq c) }
    else { d with dVdq := put d.dVdq (fun _ => 0) }
  let d := { d with doYcrb := upd d.doYcrb i ((d.oYcrb i).variation (d.ov i)) }
  { d with doYcrb := upd d.doYcrb i (addForceCross (d.oh i) (d.doYcrb i)) }

/-- the output matrices of `computeCentroidalDynamicsDerivatives` -/
structure CentDer (K : Type*) where
  dh_dq : ℕ → Force K
  dhdot_dq : ℕ → Force K
  dhdot_dv : ℕ → Force K
  dhdot_da : ℕ → Force K

variable [LinearOrder K] [HasEps K]

/-- `CentroidalDynDerivativesBackwardStep::algo`, `algorithm/centroidal-derivatives.hxx:150-199`. The parent may be the
universe. -/
def cdBwd (s : Sys K) (i : ℕ) (d : Data K) : Data K :=
  let put := fun (m : ℕ → Force K) (f : ℕ → Force K) => putSeg m (s.iv i) (s.jnv i) (fun k => f (s.iv i + k))
  let d := { d with tau := putSeg d.tau (s.iv i) (s.jnv i) (fun k => (d.J (s.iv i + k)).dot (d.of i)) }
  let d := { d with dFda := put d.dFda (fun c => (d.oYcrb i).mul (d.J c)) }
  let d := { d with dFdv := put d.dFdv (fun c => (d.doYcrb i).mulMF (d.J c)) }
  let d := { d with dFdv := put d.dFdv (fun c => d.dFdv c + (d.oYcrb i).mul (d.dAdv c)) }
  let d := if s.par i > 0 then
      let d := { d with dFdq := put d.dFdq (fun c => (d.doYcrb i).mulMF (d.dVdq c)) }
      { d with dFdq := put d.dFdq (fun c => d.dFdq c + (d.oYcrb i).mul (d.dAdq c)) }
    else { d with dFdq := put d.dFdq (fun c => (d.oYcrb i).mul (d.dAdq c)) }
  let d := { d with dFdq := put d.dFdq (fun c => d.dFdq c + (d.J c).crossF (d.of i)) }
  let d := { d with oYcrb := upd d.oYcrb (s.par i) (Inertia.addAssign (d.oYcrb (s.par i)) (d.oYcrb i)) }
  let d := { d with doYcrb := upd d.doYcrb (s.par i) (d.doYcrb (s.par i) + d.doYcrb i) }
  let d := { d with oh := upd d.oh (s.par i) (d.oh (s.par i) + d.oh i) }
  let d := { d with of := upd d.of (s.par i) (d.of (s.par i) + d.of i) }
  let d := { d with dHdq := put d.dHdq (fun c => (d.J c).crossF (d.oh i)) }
  { d with dHdq := put d.dHdq (fun c => d.dHdq c + (d.oYcrb i).mul (d.dVdq c)) }

/-- `translateForceSet(Fin, v3, Fout)`, `algorithm/centroidal-derivatives.hxx:205-227` -/
def translateForceSet (n : ℕ) (Fin : ℕ → Force K) (p : V3 K) (Fout : ℕ → Force K) : ℕ → Force K :=
  fun k => if k < n then ⟨(Fin k).lin, (Fin k).ang - p.cross (Fin k).lin⟩ else Fout k

/-- `col(k).angular() += x.cross(dFda.col(k).linear()) / m`, lines 337-339, 343-346, 477-479, 483-486 -/
def addCrossLin (n : ℕ) (F : ℕ → Force K) (x : V3 K) (dFda : ℕ → Force K) (m : K) : ℕ → Force K :=
  fun k => if k < n then ⟨(F k).lin, (F k).ang + (x.cross (dFda k).lin).divS m⟩ else F k

/-- lines 310-332 of `computeCentroidalDynamicsDerivatives` (450-472 of `getCentroidalDynamicsDerivatives`, which sets
`com[0]` before `mass[0]`): the quantities at the centre of mass. -/
def cdGlobals (d : Data K) : Data K :=
  let Y := d.oYcrb 0
  let com := Y.lever
  let d := { d with mass := upd d.mass 0 Y.mass }
  let d := { d with com := upd d.com 0 Y.lever }
  let d := { d with hg := d.oh 0 }
  let d := { d with hg := ⟨d.hg.lin, d.hg.ang + d.hg.lin.cross com⟩ }
  let d := { d with dhg := d.of 0 }
  let d := { d with dhg := ⟨d.dhg.lin, d.dhg.ang + d.dhg.lin.cross com⟩ }
  { d with Ig := ⟨Y.mass, 0, Y.rotI⟩ }

/-- lines 334-351 (474-491, where `F` is `Ftmp`): the output matrices and `data.Ag`. -/
def cdOutputs (s : Sys K) (d : Data K) (F : ℕ → Force K) (o : CentDer K) : Data K × CentDer K :=
  let Y := d.oYcrb 0
  let com := Y.lever
  let o := { o with dh_dq := translateForceSet s.nv d.dHdq com o.dh_dq }
  let o := { o with dh_dq := addCrossLin s.nv o.dh_dq d.hg.lin d.dFda Y.mass }
  let o := { o with dhdot_dq := translateForceSet s.nv F com o.dhdot_dq }
  let o := { o with dhdot_dq := addCrossLin s.nv o.dhdot_dq d.dhg.lin d.dFda Y.mass }
  let o := { o with dhdot_dv := translateForceSet s.nv d.dFdv com o.dhdot_dv }
  let d := { d with Ag := translateForceSet s.nv d.dFda com d.Ag }
  (d, { o with dhdot_da := d.Ag })

/-- `computeCentroidalDynamicsDerivatives`, `algorithm/centroidal-derivatives.hxx:257-352`. -/
def computeCentroidalDynamicsDerivatives (s : Sys K) (d : Data K) (q v a : ℕ → K) (o : CentDer K) :
    Data K × CentDer K :=
  let d := fwd (cdFwd s q v a) s.n d
  let d := { d with oYcrb := upd d.oYcrb 0 0, oh := upd d.oh 0 0, of := upd d.of 0 0 }
  let d := bwd (cdBwd s) s.n d
  let d := cdGlobals d
  cdOutputs s d d.dFdq o

/-- `GetCentroidalDynDerivativesBackwardStep::algo`, `algorithm/centroidal-derivatives.hxx:365-403`; `vtmp` is
`data.v[0]` and `Ftmp` is `data.Fcrb[0]`. -/
def getCdBwd (s : Sys K) (i : ℕ) (d : Data K) : Data K :=
  let mg := (d.oYcrb i).mass • s.grav.lin
  let d := (List.range (s.jnv i)).foldl (fun (d : Data K) k =>
    let m := d.J (s.iv i + k)
    let d := { d with v := upd d.v 0 ⟨m.lin + m.ang.cross (d.oYcrb i).lever, (d.v 0).ang⟩ }
    { d with Fcrb := upd d.Fcrb 0 (upd (d.Fcrb 0) (s.iv i + k)
      ⟨(d.Fcrb 0 (s.iv i + k)).lin, (d.Fcrb 0 (s.iv i + k)).ang + (d.v 0).lin.cross mg⟩) }) d
  let d := { d with oh := upd d.oh (s.par i) (d.oh (s.par i) + d.oh i) }
  let d := if s.par i = 0 then
      { d with
        of := upd d.of 0 (d.of 0 + d.of i)
        oYcrb := upd d.oYcrb 0 (Inertia.addAssign (d.oYcrb 0) (d.oYcrb i)) }
    else d
  let put := fun (m : ℕ → Force K) (f : ℕ → Force K) => putSeg m (s.iv i) (s.jnv i) (fun k => f (s.iv i + k))
  let d := { d with dHdq := put d.dHdq (fun c => (d.J c).crossF (d.oh i)) }
  { d with dHdq := put d.dHdq (fun c => d.dHdq c + (d.oYcrb i).mul (d.dVdq c)) }

/-- `getCentroidalDynamicsDerivatives`, `algorithm/centroidal-derivatives.hxx:414-492`, "assumes that
`computeRNEADerivatives` has been called before". -/
def getCentroidalDynamicsDerivatives (s : Sys K) (d : Data K) (o : CentDer K) : Data K × CentDer K :=
  let d := { d with oh := upd d.oh 0 0, of := upd d.of 0 0, oYcrb := upd d.oYcrb 0 0 }
  let d := { d with Fcrb := upd d.Fcrb 0 d.dFdq }
  let d := bwd (getCdBwd s) s.n d
  let d := { d with of := upd d.of 0 (d.of 0 + (d.oYcrb 0).mul s.grav) }
  let d := cdGlobals d
  cdOutputs s d (d.Fcrb 0) o

omit [LinearOrder K] [HasEps K] in
/-- `CoMVelocityDerivativesForwardStep::algo`, `algorithm/center-of-mass-derivatives.hxx:31-62`. -/
def comVelDerStep (s : Sys K) (d : Data K) (i : ℕ) (x : ℕ → V3 K) : ℕ → V3 K :=
  let vpc := if s.par i > 0 then d.v i - (d.joints i).v else 0
  let vpc := ⟨vpc.lin - d.vcom i, vpc.ang⟩
  putSeg x (s.iv i) (s.jnv i) (fun k =>
    let vxS : Motion K := Motion.cross vpc ((d.joints i).S k)
    (d.mass i / d.mass 0) • (d.oMi i).rot.mulVec (vxS.lin - (d.com i).cross vxS.ang))

omit [LinearOrder K] [HasEps K] in
/-- `getCenterOfMassVelocityDerivatives`, `algorithm/center-of-mass-derivatives.hxx:70-92`, called after
`computeForwardKinematicsDerivatives` and `centerOfMass` with velocities and subtrees. -/
def getCenterOfMassVelocityDerivatives (s : Sys K) (d : Data K) (x : ℕ → V3 K) : ℕ → V3 K :=
  fwd (comVelDerStep s d) s.n x

end field
end Pin
