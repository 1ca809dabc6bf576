import Verif.Algo.Coriolis
import Verif.Algo.KinDerivatives

/-!
# `algorithm/rnea-derivatives.hxx`

Models without mimic joints (`assert(model.check(MimicChecker()))`). The output matrices are arguments: what they hold
before the call matters, as not all of their entries are written. The check `isZero(model.gravity.angular())` that the
overload without external forces makes first (lines 496-498) is not part of the model.
-/

namespace Pin
open Finset
variable {K : Type*}

/-- `diagonal() += x` on a matrix of size `n` -/
def addDiag [Add K] (n : ℕ) (A : ℕ → ℕ → K) (x : ℕ → K) : ℕ → ℕ → K :=
  fun r c => if r = c ∧ r < n then A r c + x r else A r c

section field
variable [Field K]

/-- `ComputeGeneralizedGravityDerivativeForwardStep::algo`, `algorithm/rnea-derivatives.hxx:33-66`. -/
def gravDerFwd (s : Sys K) (q : ℕ → K) (i : ℕ) (d : Data K) : Data K :=
  let d := { d with joints := upd d.joints i ((s.jt i).calc (s.qs q i) (d.joints i)) }
  let d := { d with liMi := upd d.liMi i (s.pl i * (d.joints i).M) }
  let d := { d with oMi := upd d.oMi i (if s.par i > 0 then d.oMi (s.par i) * d.liMi i else d.liMi i) }
  let d := { d with oinertias := upd d.oinertias i ((s.Y i).act (d.oMi i)) }
  let d := { d with oYcrb := upd d.oYcrb i (d.oinertias i) }
  let d := { d with of := upd d.of i ((d.oYcrb i).mul (d.oa_gf 0)) }
  let d := { d with J := putSeg d.J (s.iv i) (s.jnv i) (fun k => (d.oMi i).act ((d.joints i).S k)) }
  { d with dAdq := putSeg d.dAdq (s.iv i) (s.jnv i) (fun k => (d.oa_gf 0).cross (d.J (s.iv i + k))) }

/-- `ComputeRNEADerivativesForwardStep::algo`, `algorithm/rnea-derivatives.hxx:263-336`; `addForceCrossMatrix`
(338-351) is the same function as in `rnea.hxx`. -/
def rneaDerFwd (s : Sys K) (q v a : ℕ → K) (i : ℕ) (d : Data K) : Data K :=
  let d := { d with joints := upd d.joints i ((s.jt i).calcV (s.qs q i) (s.vs v i) (d.joints i)) }
  let d := { d with liMi := upd d.liMi i (s.pl i * (d.joints i).M) }
  let d := { d with v := upd d.v i (d.joints i).v }
  let d := if s.par i > 0 then
      let d := { d with oMi := upd d.oMi i (d.oMi (s.par i) * d.liMi i) }
      { d with v := upd d.v i (d.v i + (d.liMi i).actInv (d.v (s.par i))) }
    else { d with oMi := upd d.oMi i (d.liMi i) }
  let d := { d with a := upd d.a i (comb (d.joints i).S (s.jnv i) (s.vs a i) + (d.joints i).c
    + (d.v i).cross (d.joints i).v) }
  let d := if s.par i > 0 then
      { d with a := upd d.a i (d.a i + (d.liMi i).actInv (d.a (s.par i))) } else d
  let d := { d with oinertias := upd d.oinertias i ((s.Y i).act (d.oMi i)) }
  let d := { d with oYcrb := upd d.oYcrb i (d.oinertias i) }
  let d := { d with ov := upd d.ov i ((d.oMi i).act (d.v i)) }
  let d := { d with oa := upd d.oa i ((d.oMi i).act (d.a i)) }
  let d := { d with oa_gf := upd d.oa_gf i (d.oa i - s.grav) }
  let d := { d with oh := upd d.oh i ((d.oYcrb i).mul (d.ov i)) }
  let d := { d with of := upd d.of i ((d.oYcrb i).mul (d.oa_gf i) + (d.ov i).crossF (d.oh i)) }
  let put := fun (m : ℕ → Motion K) (f : ℕ → Motion K) => putSeg m (s.iv i) (s.jnv i) (fun k => f (s.iv i + k))
  let d := { d with J := putSeg d.J (s.iv i) (s.jnv i) (fun k => (d.oMi i).act ((d.joints i).S k)) }
  let d := { d with dJ := put d.dJ (fun c => (d.ov i).cross (d.J c)) }
  let d := { d with dAdq := put d.dAdq (fun c => (d.oa_gf (s.par i)).cross (d.J c)) }
  let d := { d with dAdv := put d.dAdv (fun c => d.dJ c) }
  let d := if s.par i > 0 then
      let d := { d with dVdq := put d.dVdq (fun c => (d.ov (s.par i)).cross (d.J c)) }
      let d := { d with dAdq := put d.dAdq (fun c => d.dAdq c + (d.ov (s.par i)).cross (d.dVdq c)) }
      { d with dAdv := put d.dAdv (fun c => d.dAdv c + d.dVdq c) }
    else { d with dVdq := put d.dVdq (fun _ => 0) }
  let d := { d with doYcrb := upd d.doYcrb i ((d.oYcrb i).variation (d.ov i)) }
  { d with doYcrb := upd d.doYcrb i (addForceCross (d.oh i) (d.doYcrb i)) }

/-- the output matrices of `computeRNEADerivatives` -/
structure RneaDer (K : Type*) where
  dq : ℕ → ℕ → K
  dv : ℕ → ℕ → K
  da : ℕ → ℕ → K

variable [LinearOrder K] [HasEps K]

/-- `ComputeGeneralizedGravityDerivativeBackwardStep::algo`, `algorithm/rnea-derivatives.hxx:88-137`, where the
component of the result selected by `g` is `data.g` or `data.tau`; the state is the `Data`, that vector and the output
matrix. -/
def gravDerBwd (s : Sys K) (i : ℕ) (x : Data K × (ℕ → K) × (ℕ → ℕ → K)) : Data K × (ℕ → K) × (ℕ → ℕ → K) :=
  let (d, g, G) := x
  let put := fun (m : ℕ → Force K) (f : ℕ → Force K) => putSeg m (s.iv i) (s.jnv i) (fun k => f (s.iv i + k))
  let d := { d with dFdq := put d.dFdq (fun c => (d.oYcrb i).mul (d.dAdq c)) }
  let G := putBlock G (s.iv i) (s.iv i) (s.jnv i) (s.nvSub i)
    (fun r c => (d.J (s.iv i + r)).dot (d.dFdq (s.iv i + c)))
  let d := { d with dFdq := put d.dFdq (fun c => d.dFdq c + (d.J c).crossF (d.of i)) }
  let d := { d with Ag := put d.Ag (fun c => (d.oYcrb i).mul (d.J c)) }
  let G := rowLoop (parentsFromRow s) (fun j G => putBlock G (s.iv i) j (s.jnv i) 1
    (fun r _ => (d.dAdq j).dot (d.Ag (s.iv i + r)))) (s.nv + 1) (parentsFromRow s (s.iv i)) G
  let g := putSeg g (s.iv i) (s.jnv i) (fun k => (d.J (s.iv i + k)).dot (d.of i))
  let d := if s.par i > 0 then
      { d with
        oYcrb := upd d.oYcrb (s.par i) (Inertia.addAssign (d.oYcrb (s.par i)) (d.oYcrb i))
        of := upd d.of (s.par i) (d.of (s.par i) + d.of i) }
    else d
  (d, g, G)

/-- `computeGeneralizedGravityDerivatives`, `algorithm/rnea-derivatives.hxx:145-183`: the `Data` and the matrix. -/
def computeGeneralizedGravityDerivatives (s : Sys K) (d : Data K) (q : ℕ → K) (G : ℕ → ℕ → K) :
    Data K × (ℕ → ℕ → K) :=
  let d := { d with oa_gf := upd d.oa_gf 0 (-s.grav) }
  let d := fwd (gravDerFwd s q) s.n d
  let x := bwd (gravDerBwd s) s.n (d, d.g, G)
  ({ x.1 with g := x.2.1 }, x.2.2)

/-- `computeStaticTorqueDerivatives`, `algorithm/rnea-derivatives.hxx:191-233`. -/
def computeStaticTorqueDerivatives (s : Sys K) (d : Data K) (q : ℕ → K) (fext : ℕ → Force K) (G : ℕ → ℕ → K) :
    Data K × (ℕ → ℕ → K) :=
  let d := { d with oa_gf := upd d.oa_gf 0 (-s.grav) }
  let d := fwd (fun i d =>
    let d := gravDerFwd s q i d
    { d with of := upd d.of i (d.of i - (d.oMi i).actF (fext i)) }) s.n d
  let x := bwd (gravDerBwd s) s.n (d, d.tau, G)
  ({ x.1 with tau := x.2.1 }, x.2.2)

/-- `ComputeRNEADerivativesBackwardStep::algo`, `algorithm/rnea-derivatives.hxx:378-459`. The columns of `dYtJ`, which
is `data.Fcrb[0]`, are 6-vectors that are multiplied with motions. -/
def rneaDerBwd (s : Sys K) (i : ℕ) (x : Data K × RneaDer K) : Data K × RneaDer K :=
  let (d, o) := x
  let put := fun (m : ℕ → Force K) (f : ℕ → Force K) => putSeg m (s.iv i) (s.jnv i) (fun k => f (s.iv i + k))
  let ip := s.iv i + s.jnv i
  let np := s.nvSub i - s.jnv i
  let d := { d with tau := putSeg d.tau (s.iv i) (s.jnv i) (fun k => (d.J (s.iv i + k)).dot (d.of i)) }
  let d := { d with dFda := put d.dFda (fun c => (d.oYcrb i).mul (d.J c)) }
  let o := { o with
    da := putBlock o.da (s.iv i) (s.iv i) (s.jnv i) (s.nvSub i)
      (fun r c => (d.J (s.iv i + r)).dot (d.dFda (s.iv i + c))) }
  let d := if s.par i > 0 then
      let d := { d with dFdq := put d.dFdq (fun c => (d.doYcrb i).mulMF (d.dVdq c)) }
      { d with dFdq := put d.dFdq (fun c => d.dFdq c + (d.oYcrb i).mul (d.dAdq c)) }
    else { d with dFdq := put d.dFdq (fun c => (d.oYcrb i).mul (d.dAdq c)) }
  let d := { d with Fcrb := upd d.Fcrb 0 (put (d.Fcrb 0) (fun c => (d.doYcrb i).tr.mulMF (d.J c))) }
  let o := { o with
    dq := putBlock o.dq ip (s.iv i) np (s.jnv i)
      (fun r c => (d.dAdq (s.iv i + c)).dot (d.dFda (ip + r)) + (d.dVdq (s.iv i + c)).dot (d.Fcrb 0 (ip + r))) }
  let o := { o with
    dq := putBlock o.dq (s.iv i) (s.iv i) (s.jnv i) (s.nvSub i)
      (fun r c => (d.J (s.iv i + r)).dot (d.dFdq (s.iv i + c))) }
  let d := { d with dFdq := put d.dFdq (fun c => d.dFdq c + (d.J c).crossF (d.of i)) }
  let d := { d with dFdv := put d.dFdv (fun c => (d.doYcrb i).mulMF (d.J c)) }
  let d := { d with dFdv := put d.dFdv (fun c => d.dFdv c + (d.oYcrb i).mul (d.dAdv c)) }
  let o := { o with
    dv := putBlock o.dv ip (s.iv i) np (s.jnv i)
      (fun r c => (d.dAdv (s.iv i + c)).dot (d.dFda (ip + r)) + (d.J (s.iv i + c)).dot (d.Fcrb 0 (ip + r))) }
  let o := { o with
    dv := putBlock o.dv (s.iv i) (s.iv i) (s.jnv i) (s.nvSub i)
      (fun r c => (d.J (s.iv i + r)).dot (d.dFdv (s.iv i + c))) }
  let d := if s.par i > 0 then
      { d with
        oYcrb := upd d.oYcrb (s.par i) (Inertia.addAssign (d.oYcrb (s.par i)) (d.oYcrb i))
        doYcrb := upd d.doYcrb (s.par i) (d.doYcrb (s.par i) + d.doYcrb i)
        of := upd d.of (s.par i) (d.of (s.par i) + d.of i) }
    else d
  (d, o)

/-- "restore the status of `dAdq_cols` (remove gravity)", `algorithm/rnea-derivatives.hxx:530-535, 611-616` -/
def restoreDAdq (s : Sys K) (d : Data K) : Data K :=
  { d with dAdq := fun k => if k < s.nv then ⟨(d.dAdq k).lin + s.grav.lin.cross (d.J k).ang, (d.dAdq k).ang⟩
    else d.dAdq k }

/-- `computeRNEADerivatives(model, data, q, v, a, dq, dv, da)`, `algorithm/rnea-derivatives.hxx:471-541`. -/
def computeRNEADerivatives (s : Sys K) (d : Data K) (q v a : ℕ → K) (o : RneaDer K) : Data K × RneaDer K :=
  let d := { d with oa_gf := upd d.oa_gf 0 (-s.grav) }
  let d := fwd (rneaDerFwd s q v a) s.n d
  let (d, o) := bwd (rneaDerBwd s) s.n (d, o)
  let d := restoreDAdq s d
  ({ d with tau := fun r => d.tau r + s.arm r * a r }, { o with da := addDiag s.nv o.da s.arm })

/-- `computeRNEADerivatives(model, data, q, v, a, fext, dq, dv, da)`, `algorithm/rnea-derivatives.hxx:553-622`. The
armature goes to `data.M` (line 621). -/
def computeRNEADerivativesFext (s : Sys K) (d : Data K) (q v a : ℕ → K) (fext : ℕ → Force K) (o : RneaDer K) :
    Data K × RneaDer K :=
  let d := { d with oa_gf := upd d.oa_gf 0 (-s.grav) }
  let d := fwd (fun i d =>
    let d := rneaDerFwd s q v a i d
    { d with of := upd d.of i (d.of i - (d.oMi i).actF (fext i)) }) s.n d
  let (d, o) := bwd (rneaDerBwd s) s.n (d, o)
  let d := restoreDAdq s d
  ({ d with tau := fun r => d.tau r + s.arm r * a r, M := addDiag s.nv d.M s.arm }, o)

/-- `computeRNEADerivatives(model, data, q, v, a)`, `algorithm/rnea-derivatives.hxx:625-641`: the output matrices are
`data.dtau_dq`, `data.dtau_dv` and `data.M`. -/
def computeRNEADerivativesIn (s : Sys K) (d : Data K) (q v a : ℕ → K) : Data K :=
  let (e, o) := computeRNEADerivatives s d q v a ⟨d.dtau_dq, d.dtau_dv, d.M⟩
  { e with dtau_dq := o.dq, dtau_dv := o.dv, M := o.da }

/-- `computeRNEADerivatives(model, data, q, v, a, fext)`, `algorithm/rnea-derivatives.hxx:643-661`: same output matrices;
line 621 then adds the armature to `data.M`, which is the output matrix. -/
def computeRNEADerivativesFextIn (s : Sys K) (d : Data K) (q v a : ℕ → K) (fext : ℕ → Force K) : Data K :=
  let (e, o) := computeRNEADerivativesFext s d q v a fext ⟨d.dtau_dq, d.dtau_dv, d.M⟩
  { e with dtau_dq := o.dq, dtau_dv := o.dv, M := addDiag s.nv o.da s.arm }

end field
end Pin
