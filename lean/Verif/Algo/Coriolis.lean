import Verif.Algo.Crba
import Verif.Algo.Kinematics
import Verif.Algo.Rows

/-! # The Coriolis matrix: `algorithm/rnea.hxx:494-765`, models without mimic joints -/

namespace Pin
variable {K : Type*} [Field K] [LinearOrder K] [HasEps K]

/-- `addForceCrossMatrix`, `algorithm/rnea.hxx:560-571`: `addSkew` on three of the four blocks. -/
def addForceCross (f : Force K) (m : M6 K) : M6 K :=
  ⟨m.ll, m.la + M3.skew (-f.lin), m.al + M3.skew (-f.lin), m.aa + M3.skew (-f.ang)⟩

/-- `CoriolisMatrixForwardStep::algo`, `algorithm/rnea.hxx:515-554`. -/
def coriolisFwd (s : Sys K) (q v : ℕ → K) (i : ℕ) (d : Data K) : Data K :=
  let d := { d with joints := upd d.joints i ((s.jt i).calcV (s.qs q i) (s.vs v i) (d.joints i)) }
  let d := { d with liMi := upd d.liMi i (s.pl i * (d.joints i).M) }
  let d := { d with oMi := upd d.oMi i (if s.par i > 0 then d.oMi (s.par i) * d.liMi i else d.liMi i) }
  let d := { d with oYcrb := upd d.oYcrb i ((s.Y i).act (d.oMi i)) }
  let d := { d with v := upd d.v i (d.joints i).v }
  let d := if s.par i > 0 then
      { d with v := upd d.v i (d.v i + (d.liMi i).actInv (d.v (s.par i))) } else d
  let d := { d with ov := upd d.ov i ((d.oMi i).act (d.v i)) }
  let d := { d with oh := upd d.oh i ((d.oYcrb i).mul (d.ov i)) }
  let d := { d with J := putSeg d.J (s.iv i) (s.jnv i) (fun k => (d.oMi i).act ((d.joints i).S k)) }
  let d := { d with dJ := putSeg d.dJ (s.iv i) (s.jnv i) (fun k => (d.ov i).cross (d.J (s.iv i + k))) }
  let d := { d with B := upd d.B i ((d.oYcrb i).variation ((1 / 2 : K) • d.ov i)) }
  { d with B := upd d.B i (addForceCross ((1 / 2 : K) • d.oh i) (d.B i)) }

/-- The rows of `C` written for joint `i`, `algorithm/rnea.hxx:600-617` and `698-714`: the block on the
subtree, then the columns of the ancestors, twice. -/
def coriolisRows (s : Sys K) (i : ℕ) (J dJ : ℕ → Motion K) (dFdv Ag : ℕ → Force K) (B : M6 K)
    (C : ℕ → ℕ → K) : ℕ → ℕ → K :=
  let C := putBlock C (s.iv i) (s.iv i) (s.jnv i) (s.nvSub i)
    (fun r c => (J (s.iv i + r)).dot (dFdv (s.iv i + c)))
  let C := rowLoop (parentsFromRow s) (fun j C => putBlock C (s.iv i) j (s.jnv i) 1
    (fun r _ => (dJ j).dot (Ag (s.iv i + r)))) (s.nv + 1) (parentsFromRow s (s.iv i)) C
  rowLoop (parentsFromRow s) (fun j C => putBlock C (s.iv i) j (s.jnv i) 1
    (fun r _ => C (s.iv i + r) j + (J (s.iv i + r)).dot (B.mulMF (J j)))) (s.nv + 1) (parentsFromRow s (s.iv i)) C

/-- `CoriolisMatrixBackwardStep::algo`, `algorithm/rnea.hxx:584-628`. -/
def coriolisBwd (s : Sys K) (i : ℕ) (d : Data K) : Data K :=
  let d := { d with dFdv := putSeg d.dFdv (s.iv i) (s.jnv i) (fun k => (d.oYcrb i).mul (d.dJ (s.iv i + k))) }
  let d := { d with
    dFdv := putSeg d.dFdv (s.iv i) (s.jnv i)
      (fun k => d.dFdv (s.iv i + k) + (d.B i).mulMF (d.J (s.iv i + k))) }
  let d := { d with Ag := putSeg d.Ag (s.iv i) (s.jnv i) (fun k => (d.oYcrb i).mul (d.J (s.iv i + k))) }
  let d := { d with C := coriolisRows s i d.J d.dJ d.dFdv d.Ag (d.B i) d.C }
  if s.par i > 0 then
    { d with
      oYcrb := upd d.oYcrb (s.par i) (Inertia.addAssign (d.oYcrb (s.par i)) (d.oYcrb i))
      B := upd d.B (s.par i) (d.B (s.par i) + d.B i) }
  else d

/-- `computeCoriolisMatrix`, `algorithm/rnea.hxx:631-668`. -/
def computeCoriolisMatrix (s : Sys K) (d : Data K) (q v : ℕ → K) : Data K :=
  bwd (coriolisBwd s) s.n (fwd (coriolisFwd s q v) s.n d)

/-- loop of `getCoriolisMatrix`, `algorithm/rnea.hxx:748-754` -/
def getCoriolisFwd (s : Sys K) (i : ℕ) (d : Data K) : Data K :=
  let oY := (s.Y i).act (d.oMi i)
  let d := { d with B := upd d.B i (oY.variation ((1 / 2 : K) • d.ov i)) }
  { d with B := upd d.B i (addForceCross ((1 / 2 : K) • d.oh i) (d.B i)) }

/-- `GetCoriolisMatrixBackwardStep::algo`, `algorithm/rnea.hxx:681-722`. -/
def getCoriolisBwd (s : Sys K) (i : ℕ) (d : Data K) : Data K :=
  let d := { d with
    Fcrb := upd d.Fcrb 0 (putSeg (d.Fcrb 0) (s.iv i) (s.jnv i)
      (fun k => (d.oYcrb i).mul (d.dJ (s.iv i + k)))) }
  let d := { d with
    Fcrb := upd d.Fcrb 0 (putSeg (d.Fcrb 0) (s.iv i) (s.jnv i)
      (fun k => d.Fcrb 0 (s.iv i + k) + (d.B i).mulMF (d.J (s.iv i + k)))) }
  let d := { d with Ag := putSeg d.Ag (s.iv i) (s.jnv i) (fun k => (d.oYcrb i).mul (d.J (s.iv i + k))) }
  let d := { d with C := coriolisRows s i d.J d.dJ (d.Fcrb 0) d.Ag (d.B i) d.C }
  if s.par i > 0 then { d with B := upd d.B (s.par i) (d.B (s.par i) + d.B i) } else d

/-- `getCoriolisMatrix`, `algorithm/rnea.hxx:725-757`. -/
def getCoriolisMatrix (s : Sys K) (d : Data K) : Data K :=
  bwd (getCoriolisBwd s) s.n (fwd (getCoriolisFwd s) s.n d)

end Pin
