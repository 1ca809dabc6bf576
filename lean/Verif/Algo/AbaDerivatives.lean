import Verif.Algo.Minverse
import Verif.Algo.RneaDerivatives

/-!
# `algorithm/aba-derivatives.hxx`

Models without mimic joints (`assert(model.check(MimicChecker()))`). The output matrices are arguments. The matrix
`aba_partial_dtau`, which the code also uses as work space, is carried in the field `Minv` of the state during the
passes; `data.Minv` itself is written only by the overloads that have it as output. The check
`isZero(model.gravity.angular())` that every overload makes first is not part of the model.
-/

namespace Pin
open Finset
variable {K : Type*} [Field K]

/-- `ComputeABADerivativesForwardStep1::algo`, `algorithm/aba-derivatives.hxx:38-79`. -/
def abaDerFwd1 (s : Sys K) (q v : ℕ → K) (i : ℕ) (d : Data K) : Data K :=
  let d := { d with joints := upd d.joints i ((s.jt i).calcV (s.qs q i) (s.vs v i) (d.joints i)) }
  let d := { d with liMi := upd d.liMi i (s.pl i * (d.joints i).M) }
  let d := { d with oMi := upd d.oMi i (if s.par i > 0 then d.oMi (s.par i) * d.liMi i else d.liMi i) }
  let d := { d with ov := upd d.ov i ((d.oMi i).act (d.joints i).v) }
  let d := if s.par i > 0 then { d with ov := upd d.ov i (d.ov i + d.ov (s.par i)) } else d
  let d := { d with oa_gf := upd d.oa_gf i ((d.oMi i).act (d.joints i).c) }
  let d := if s.par i > 0 then
      { d with oa_gf := upd d.oa_gf i (d.oa_gf i + (d.ov (s.par i)).cross (d.ov i)) }
    else d
  let d := { d with oinertias := upd d.oinertias i ((s.Y i).act (d.oMi i)) }
  let d := { d with oYcrb := upd d.oYcrb i (d.oinertias i) }
  let d := { d with oYaba := upd d.oYaba i (d.oYcrb i).matrix }
  let d := { d with oh := upd d.oh i ((d.oYcrb i).mul (d.ov i)) }
  let d := { d with of := upd d.of i ((d.ov i).crossF (d.oh i)) }
  { d with J := putSeg d.J (s.iv i) (s.jnv i) (fun k => (d.oMi i).act ((d.joints i).S k)) }

/-- `ComputeABADerivativesBackwardStep1::algo`, `algorithm/aba-derivatives.hxx:97-170`. The block of code on the rows of
the inverse (lines 135-159) is the one of `ComputeMinverseBackwardStep` (`minvRows`). -/
def abaDerBwd1 (s : Sys K) (i : ℕ) (d : Data K) : Data K :=
  let S := seg d.J (s.iv i)
  let d := { d with u := addSeg d.u (s.iv i) (s.jnv i) (fun k => -(StF S (d.of i) k)) }
  let d := { d with
    joints := upd d.joints i ((d.joints i).calcAba (s.jnv i) S (seg s.arm (s.iv i)) (d.oYaba i)) }
  let d := minvRows s i d
  if s.par i > 0 then
    let d := { d with oYaba := upd d.oYaba i ((d.joints i).down (s.jnv i) (d.oYaba i)) }
    let d := { d with
      of := upd d.of i (d.of i + ((d.oYaba i).mulMF (d.oa_gf i)
        + ∑ k ∈ range (s.jnv i), d.u (s.iv i + k) • (d.joints i).UDinv k)) }
    let d := { d with oYaba := upd d.oYaba (s.par i) (d.oYaba (s.par i) + d.oYaba i) }
    { d with of := upd d.of (s.par i) (d.of (s.par i) + d.of i) }
  else d

/-- the columns of the second forward step, `algorithm/aba-derivatives.hxx:236-255` and `:679-698`; `Y` is
`data.oYcrb[i]`, resp. `data.oinertias[i]` -/
def abaDerCols (s : Sys K) (i : ℕ) (Y : Inertia K) (d : Data K) : Data K :=
  let put := fun (m : ℕ → Motion K) (f : ℕ → Motion K) => putSeg m (s.iv i) (s.jnv i) (fun k => f (s.iv i + k))
  let d := { d with dJ := put d.dJ (fun c => (d.ov i).cross (d.J c)) }
  let d := { d with dAdq := put d.dAdq (fun c => (d.oa_gf (s.par i)).cross (d.J c)) }
  let d := { d with dAdv := put d.dAdv (fun c => d.dJ c) }
  let d := if s.par i > 0 then
      let d := { d with dVdq := put d.dVdq (fun c => (d.ov (s.par i)).cross (d.J c)) }
      let d := { d with dAdq := put d.dAdq (fun c => d.dAdq c + (d.ov (s.par i)).cross (d.dVdq c)) }
      { d with dAdv := put d.dAdv (fun c => d.dAdv c + d.dVdq c) }
    else { d with dVdq := put d.dVdq (fun _ => 0) }
  let d := { d with doYcrb := upd d.doYcrb i (Y.variation (d.ov i)) }
  { d with doYcrb := upd d.doYcrb i (addForceCross (d.oh i) (d.doYcrb i)) }

/-- `ComputeABADerivativesForwardStep2::algo`, `algorithm/aba-derivatives.hxx:188-256`. The rows of the inverse (lines
217-234) are as in `ComputeMinverseForwardStep2` (`minvFwd2`). -/
def abaDerFwd2 (s : Sys K) (i : ℕ) (d : Data K) : Data K :=
  let d := { d with oa_gf := upd d.oa_gf i (d.oa_gf i + d.oa_gf (s.par i)) }
  let d := { d with
    ddq := putSeg d.ddq (s.iv i) (s.jnv i) (fun k =>
      (∑ l ∈ range (s.jnv i), (d.joints i).Dinv k l * d.u (s.iv i + l)) - (d.oa_gf i).dot ((d.joints i).UDinv k)) }
  let d := { d with
    oa_gf := upd d.oa_gf i (d.oa_gf i + comb (seg d.J (s.iv i)) (s.jnv i) (seg d.ddq (s.iv i))) }
  let d := { d with oa := upd d.oa i (d.oa_gf i + s.grav) }
  let d := { d with of := upd d.of i ((d.oYcrb i).mul (d.oa_gf i) + (d.ov i).crossF (d.oh i)) }
  let d := minvFwd2 s i d
  abaDerCols s i (d.oYcrb i) d

/-- `optimized::ComputeABADerivativesForwardStep2::algo`, `algorithm/aba-derivatives.hxx:634-699`; the matching
`optimized::ComputeABADerivativesBackwardStep1::algo` (562-612) is `minvRows`. -/
def abaDerFwd2Opt (s : Sys K) (i : ℕ) (d : Data K) : Data K :=
  let d := { d with oYcrb := upd d.oYcrb i (d.oinertias i) }
  let d := { d with of := upd d.of i ((d.oinertias i).mul (d.oa_gf i) + (d.ov i).crossF (d.oh i)) }
  let d := minvFwd2 s i d
  abaDerCols s i (d.oinertias i) d

/-- `MatrixType3`: lower triangle := transposed upper triangle, `algorithm/aba-derivatives.hxx:448-449` -/
def mirrorUpper (nv : ℕ) (M : ℕ → ℕ → K) : ℕ → ℕ → K := fun r c => if c < r ∧ r < nv then M c r else M r c

/-- product of square matrices of size `nv` with a minus sign -/
def negMul (nv : ℕ) (A B : ℕ → ℕ → K) : ℕ → ℕ → K := fun r c => -∑ k ∈ range nv, A r k * B k c

/-- the output matrices of `computeABADerivatives` -/
structure AbaDer (K : Type*) where
  dq : ℕ → ℕ → K
  dv : ℕ → ℕ → K
  dtau : ℕ → ℕ → K

variable [LinearOrder K] [HasEps K]

/-- `ComputeABADerivativesBackwardStep2::algo`, `algorithm/aba-derivatives.hxx:283-367`. The columns `j` of the four
loops are those above joint `i`. -/
def abaDerBwd2 (s : Sys K) (i : ℕ) (d : Data K) : Data K :=
  let put := fun (m : ℕ → Force K) (f : ℕ → Force K) => putSeg m (s.iv i) (s.jnv i) (fun k => f (s.iv i + k))
  let up := fun (g : ℕ → (ℕ → ℕ → K) → ℕ → K) (G : ℕ → ℕ → K) =>
    rowLoop (parentsFromRow s) (fun j G => putBlock G (s.iv i) j (s.jnv i) 1 (fun r _ => g j G r)) (s.nv + 1)
      (parentsFromRow s (s.iv i)) G
  -- dtau/dv
  let d := { d with dFdv := put d.dFdv (fun c => (d.oYcrb i).mul (d.dAdv c)) }
  let d := { d with dFdv := put d.dFdv (fun c => d.dFdv c + (d.doYcrb i).mulMF (d.J c)) }
  let d := { d with
    dtau_dv := putBlock d.dtau_dv (s.iv i) (s.iv i) (s.jnv i) (s.nvSub i)
      (fun r c => (d.J (s.iv i + r)).dot (d.dFdv (s.iv i + c))) }
  -- dtau/dq
  let d := { d with dFdq := put d.dFdq (fun c => (d.oYcrb i).mul (d.dAdq c)) }
  let d := if s.par i > 0 then
      { d with dFdq := put d.dFdq (fun c => d.dFdq c + (d.doYcrb i).mulMF (d.dVdq c)) } else d
  let d := { d with
    dtau_dq := putBlock d.dtau_dq (s.iv i) (s.iv i) (s.jnv i) (s.nvSub i)
      (fun r c => (d.J (s.iv i + r)).dot (d.dFdq (s.iv i + c))) }
  let d := { d with dFdq := put d.dFdq (fun c => d.dFdq c + (d.J c).crossF (d.of i)) }
  let d := { d with dFda := put d.dFda (fun c => (d.oYcrb i).mul (d.J c)) }
  let d := if s.par i > 0 then
      let d := { d with dtau_dq := up (fun j _ r => (d.dAdq j).dot (d.dFda (s.iv i + r))) d.dtau_dq }
      let d := { d with dtau_dv := up (fun j _ r => (d.dAdv j).dot (d.dFda (s.iv i + r))) d.dtau_dv }
      let d := { d with
        dtau_dq := up (fun j G r => G (s.iv i + r) j + (d.J (s.iv i + r)).dot ((d.doYcrb i).mulMF (d.dVdq j))) d.dtau_dq }
      { d with
        dtau_dv := up (fun j G r => G (s.iv i + r) j + (d.J (s.iv i + r)).dot ((d.doYcrb i).mulMF (d.J j))) d.dtau_dv }
    else d
  let d := if s.par i > 0 then
      { d with
        oYcrb := upd d.oYcrb (s.par i) (Inertia.addAssign (d.oYcrb (s.par i)) (d.oYcrb i))
        doYcrb := upd d.doYcrb (s.par i) (d.doYcrb (s.par i) + d.doYcrb i)
        of := upd d.of (s.par i) (d.of (s.par i) + d.of i) }
    else d
  { d with
    dAdq := putSeg d.dAdq (s.iv i) (s.jnv i) (fun k =>
      ⟨(d.dAdq (s.iv i + k)).lin + s.grav.lin.cross (d.J (s.iv i + k)).ang, (d.dAdq (s.iv i + k)).ang⟩) }

/-- the products after the last pass, `algorithm/aba-derivatives.hxx:448-452`; `M0` is what `data.Minv` held before the
call -/
def abaDerEnd (s : Sys K) (M0 : ℕ → ℕ → K) (d : Data K) : Data K × AbaDer K :=
  let P := mirrorUpper s.nv d.Minv
  ({ d with Minv := M0 }, ⟨negMul s.nv P d.dtau_dq, negMul s.nv P d.dtau_dv, P⟩)

/-- `computeABADerivatives(model, data, q, v, tau, dq, dv, dtau)`, `algorithm/aba-derivatives.hxx:380-453`. -/
def computeABADerivatives (s : Sys K) (d : Data K) (q v tau : ℕ → K) (o : AbaDer K) : Data K × AbaDer K :=
  let M0 := d.Minv
  let d := { d with oa_gf := upd d.oa_gf 0 (-s.grav), u := tau }
  let d := { d with Minv := zeroUpper s.nv o.dtau }
  let d := fwd (abaDerFwd1 s q v) s.n d
  let d := { d with Fcrb := upd d.Fcrb 0 (fun _ => 0) }
  let d := bwd (abaDerBwd1 s) s.n d
  let d := fwd (abaDerFwd2 s) s.n d
  let d := bwd (abaDerBwd2 s) s.n d
  abaDerEnd s M0 d

/-- `computeABADerivatives(model, data, q, v, tau, fext, dq, dv, dtau)`, `algorithm/aba-derivatives.hxx:465-543`. -/
def computeABADerivativesFext (s : Sys K) (d : Data K) (q v tau : ℕ → K) (fext : ℕ → Force K) (o : AbaDer K) :
    Data K × AbaDer K :=
  let M0 := d.Minv
  let d := { d with oa_gf := upd d.oa_gf 0 (-s.grav), u := tau }
  let d := { d with Minv := zeroUpper s.nv o.dtau }
  let d := fwd (fun i d =>
    let d := abaDerFwd1 s q v i d
    { d with of := upd d.of i (d.of i - (d.oMi i).actF (fext i)) }) s.n d
  let d := { d with Fcrb := upd d.Fcrb 0 (fun _ => 0) }
  let d := bwd (abaDerBwd1 s) s.n d
  let d := fwd (fun i d =>
    let d := abaDerFwd2 s i d
    { d with of := upd d.of i (d.of i - (d.oMi i).actF (fext i)) }) s.n d
  let d := bwd (abaDerBwd2 s) s.n d
  abaDerEnd s M0 d

/-- `computeABADerivatives(model, data, dq, dv, dtau)`, `algorithm/aba-derivatives.hxx:715-767`: "assumes that `aba` has
been called first". -/
def computeABADerivativesNoUpdate (s : Sys K) (d : Data K) (o : AbaDer K) : Data K × AbaDer K :=
  let M0 := d.Minv
  let d := { d with Minv := zeroUpper s.nv o.dtau }
  let d := { d with Fcrb := upd d.Fcrb 0 (fun _ => 0) }
  let d := bwd (minvRows s) s.n d
  let d := fwd (abaDerFwd2Opt s) s.n d
  let d := bwd (abaDerBwd2 s) s.n d
  abaDerEnd s M0 d

/-- `computeABADerivatives(model, data, fext, dq, dv, dtau)`, `algorithm/aba-derivatives.hxx:776-837`. -/
def computeABADerivativesNoUpdateFext (s : Sys K) (d : Data K) (fext : ℕ → Force K) (o : AbaDer K) :
    Data K × AbaDer K :=
  let M0 := d.Minv
  let d := { d with Minv := zeroUpper s.nv o.dtau }
  let d := { d with Fcrb := upd d.Fcrb 0 (fun _ => 0) }
  let d := bwd (minvRows s) s.n d
  let d := fwd (fun i d =>
    let d := abaDerFwd2Opt s i d
    { d with of := upd d.of i (d.of i - (d.oMi i).actF (fext i)) }) s.n d
  let d := bwd (abaDerBwd2 s) s.n d
  abaDerEnd s M0 d

/-- output matrices `data.ddq_dq`, `data.ddq_dv` and `data.Minv` -/
def AbaDer.store (x : Data K × AbaDer K) : Data K := { x.1 with ddq_dq := x.2.dq, ddq_dv := x.2.dv, Minv := x.2.dtau }

/-- `computeABADerivatives(model, data, q, v, tau)`, `algorithm/aba-derivatives.hxx:850-859`. -/
def computeABADerivativesIn (s : Sys K) (d : Data K) (q v tau : ℕ → K) : Data K :=
  AbaDer.store (computeABADerivatives s d q v tau ⟨d.ddq_dq, d.ddq_dv, d.Minv⟩)

/-- `computeABADerivatives(model, data, q, v, tau, fext)`, `algorithm/aba-derivatives.hxx:868-878`. -/
def computeABADerivativesFextIn (s : Sys K) (d : Data K) (q v tau : ℕ → K) (fext : ℕ → Force K) : Data K :=
  AbaDer.store (computeABADerivativesFext s d q v tau fext ⟨d.ddq_dq, d.ddq_dv, d.Minv⟩)

/-- `computeABADerivatives(model, data)`, `algorithm/aba-derivatives.hxx:881-886`. -/
def computeABADerivativesNoUpdateIn (s : Sys K) (d : Data K) : Data K :=
  AbaDer.store (computeABADerivativesNoUpdate s d ⟨d.ddq_dq, d.ddq_dv, d.Minv⟩)

/-- `computeABADerivatives(model, data, fext)`, `algorithm/aba-derivatives.hxx:889-896`. -/
def computeABADerivativesNoUpdateFextIn (s : Sys K) (d : Data K) (fext : ℕ → Force K) : Data K :=
  AbaDer.store (computeABADerivativesNoUpdateFext s d fext ⟨d.ddq_dq, d.ddq_dv, d.Minv⟩)

end Pin
