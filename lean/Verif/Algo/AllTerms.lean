import Verif.Algo.Crba
import Verif.Algo.Centroidal
import Verif.Algo.Energy
import Verif.Algo.Jacobian

/-! # `algorithm/compute-all-terms.hxx`, models without mimic joints -/

namespace Pin
open Finset
variable {K : Type*} [Field K] [LinearOrder K] [HasEps K]

/-- `CATForwardStep::algo`, `algorithm/compute-all-terms.hxx:35-87`. -/
def catFwd (s : Sys K) (q v : ℕ → K) (i : ℕ) (d : Data K) : Data K :=
  let d := { d with joints := upd d.joints i ((s.jt i).calcV (s.qs q i) (s.vs v i) (d.joints i)) }
  let d := { d with liMi := upd d.liMi i (s.pl i * (d.joints i).M) }
  let d := { d with v := upd d.v i (d.joints i).v }
  let d :=
    if s.par i > 0 then
      { d with
        oMi := upd d.oMi i (d.oMi (s.par i) * d.liMi i)
        v := upd d.v i (d.v i + (d.liMi i).actInv (d.v (s.par i))) }
    else { d with oMi := upd d.oMi i (d.liMi i) }
  let d := { d with ov := upd d.ov i ((d.oMi i).act (d.v i)) }
  let d := { d with oYcrb := upd d.oYcrb i ((s.Y i).act (d.oMi i)) }
  let d := { d with doYcrb := upd d.doYcrb i ((d.oYcrb i).variation (d.ov i)) }
  let d := { d with J := putSeg d.J (s.iv i) (s.jnv i) (fun k => (d.oMi i).act ((d.joints i).S k)) }
  let d := { d with dJ := putSeg d.dJ (s.iv i) (s.jnv i) (fun k => (d.ov i).cross (d.J (s.iv i + k))) }
  let d := { d with a := upd d.a i ((d.joints i).c + (d.v i).cross (d.joints i).v) }
  let d := { d with a_gf := upd d.a_gf i (d.a i) }
  let d := if s.par i > 0 then { d with a := upd d.a i (d.a i + (d.liMi i).actInv (d.a (s.par i))) } else d
  let d := { d with a_gf := upd d.a_gf i (d.a_gf i + (d.liMi i).actInv (d.a_gf (s.par i))) }
  let d := { d with h := upd d.h i ((s.Y i).mul (d.v i)) }
  { d with f := upd d.f i ((s.Y i).mul (d.a_gf i) + (d.v i).crossF (d.h i)) }

/-- `CATBackwardStep::algo`, `algorithm/compute-all-terms.hxx:99-141`. -/
def catBwd (s : Sys K) (i : ℕ) (d : Data K) : Data K :=
  let p := s.par i
  let d := { d with Ag := putSeg d.Ag (s.iv i) (s.jnv i) (fun k => (d.oYcrb i).mul (d.J (s.iv i + k))) }
  let d := { d with dAg := putSeg d.dAg (s.iv i) (s.jnv i) (fun k => (d.doYcrb i).mulMF (d.J (s.iv i + k))) }
  let d := { d with
    dAg := putSeg d.dAg (s.iv i) (s.jnv i) (fun k => d.dAg (s.iv i + k) + (d.oYcrb i).mul (d.dJ (s.iv i + k))) }
  let d := { d with
    M := putBlock d.M (s.iv i) (s.iv i) (s.jnv i) (s.nvSub i)
      (fun r c => (d.J (s.iv i + r)).dot (d.Ag (s.iv i + c))) }
  let d := { d with nle := putSeg d.nle (s.iv i) (s.jnv i) (fun k => ((d.joints i).S k).dot (d.f i)) }
  let d := { d with oYcrb := upd d.oYcrb p (Inertia.addAssign (d.oYcrb p) (d.oYcrb i)) }
  let d := { d with doYcrb := upd d.doYcrb p (d.doYcrb p + d.doYcrb i) }
  let d := { d with h := upd d.h p (d.h p + (d.liMi i).actF (d.h i)) }
  let d := { d with f := upd d.f p (d.f p + (d.liMi i).actF (d.f i)) }
  let d := { d with mass := upd d.mass i (d.oYcrb i).mass }
  let d := { d with com := upd d.com i ((d.oMi i).actInvP (d.oYcrb i).lever) }
  { d with vcom := upd d.vcom i ((d.h i).lin.divS (d.mass i)) }

/-- the two loops, `algorithm/compute-all-terms.hxx:164-186` -/
def catCore (s : Sys K) (d : Data K) (q v : ℕ → K) : Data K :=
  let d := { d with
    v := upd d.v 0 0, a := upd d.a 0 0, h := upd d.h 0 0, a_gf := upd d.a_gf 0 (-s.grav), oYcrb := upd d.oYcrb 0 0 }
  let d := fwd (catFwd s q v) s.n d
  bwd (catBwd s) s.n d

/-- `algorithm/compute-all-terms.hxx:188-221` -/
def catEnd (s : Sys K) (d : Data K) : Data K :=
  let d := { d with mass := upd d.mass 0 (d.oYcrb 0).mass }
  let d := { d with com := upd d.com 0 (d.oYcrb 0).lever }
  let d := { d with vcom := upd d.vcom 0 ((d.h 0).lin.divS (d.mass 0)) }
  let d := { d with Ag := aboutCols s.nv d.Ag (d.com 0) }
  let d := { d with dAg := daboutCols s.nv d.Ag d.dAg (d.com 0) (d.vcom 0) }
  let d := { d with hg := (d.h 0).about (d.com 0) }
  let d := { d with dhg := (d.f 0).about (d.com 0) }
  let d := addArmature s d
  let d := { d with Jcom := fun r => (d.Ag r).lin.divS (d.mass 0) }
  let d := { d with Ig := ⟨(d.oYcrb 0).mass, 0, (d.oYcrb 0).rotI⟩ }
  { d with g := fun r => -((d.Ag r).lin.dot s.grav.lin) }

/-- `computeAllTerms`, `algorithm/compute-all-terms.hxx:150-225`. -/
def computeAllTerms (s : Sys K) (d : Data K) (q v : ℕ → K) : Data K :=
  computeMechanicalEnergyD s (catEnd s (catCore s d q v))

end Pin
