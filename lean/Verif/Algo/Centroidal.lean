import Verif.Algo.Com

/-! # `algorithm/centroidal.hxx`, models without mimic joints for the maps -/

namespace Pin
open Finset
section field
variable {K : Type*} [Field K]

/-- loop body of `computeCentroidalMomentum`, `algorithm/centroidal.hxx:29-37` -/
def cmFwd (s : Sys K) (i : ℕ) (d : Data K) : Data K :=
  let d := { d with mass := upd d.mass i (s.Y i).mass, com := upd d.com i ((s.Y i).mass • (s.Y i).lever) }
  { d with h := upd d.h i ((s.Y i).mul (d.v i)) }

/-- second loop of `computeCentroidalMomentum`, `algorithm/centroidal.hxx:42-50` -/
def cmBwd (s : Sys K) (i : ℕ) (d : Data K) : Data K :=
  let p := s.par i
  let d := { d with mass := upd d.mass p (d.mass p + d.mass i) }
  let d := { d with
    com := upd d.com p (d.com p + ((d.liMi i).rot.mulVec (d.com i) + d.mass i • (d.liMi i).trans)) }
  { d with h := upd d.h p (d.h p + (d.liMi i).actF (d.h i)) }

/-- `f.angular() += f.linear().cross(c)`: the force or momentum `f` about the point `c` -/
def Force.about (f : Force K) (c : V3 K) : Force K := ⟨f.lin, f.ang + f.lin.cross c⟩

/-- `computeCentroidalMomentum(model, data)`, `algorithm/centroidal.hxx:18-60`. -/
def computeCentroidalMomentumD (s : Sys K) (d : Data K) : Data K :=
  let d := fwd (cmFwd s) s.n d
  let d := { d with mass := upd d.mass 0 0, com := upd d.com 0 0, h := upd d.h 0 0 }
  let d := bwd (cmBwd s) s.n d
  let d := { d with com := upd d.com 0 ((d.com 0).divS (d.mass 0)) }
  let d := { d with hg := (d.h 0).about (d.com 0) }
  { d with vcom := upd d.vcom 0 (d.hg.lin.divS (d.mass 0)) }

/-- `computeCentroidalMomentum(model, data, q, v)`, `algorithm/centroidal.hxx:418-432`. -/
def computeCentroidalMomentum (s : Sys K) (d : Data K) (q v : ℕ → K) : Data K :=
  computeCentroidalMomentumD s (forwardKinematicsV s d q v)

/-- loop body of `computeCentroidalMomentumTimeVariation`, `algorithm/centroidal.hxx:75-84` -/
def dcmFwd (s : Sys K) (i : ℕ) (d : Data K) : Data K :=
  let d := cmFwd s i d
  { d with f := upd d.f i ((s.Y i).mul (d.a i) + (d.v i).crossF (d.h i)) }

/-- second loop of `computeCentroidalMomentumTimeVariation`, `algorithm/centroidal.hxx:91-100` -/
def dcmBwd (s : Sys K) (i : ℕ) (d : Data K) : Data K :=
  let d := cmBwd s i d
  { d with f := upd d.f (s.par i) (d.f (s.par i) + (d.liMi i).actF (d.f i)) }

/-- `computeCentroidalMomentumTimeVariation(model, data)`, `algorithm/centroidal.hxx:62-112`. -/
def computeCentroidalMomentumTimeVariationD (s : Sys K) (d : Data K) : Data K :=
  let d := fwd (dcmFwd s) s.n d
  let d := { d with mass := upd d.mass 0 0, com := upd d.com 0 0, h := upd d.h 0 0, f := upd d.f 0 0 }
  let d := bwd (dcmBwd s) s.n d
  let d := { d with com := upd d.com 0 ((d.com 0).divS (d.mass 0)) }
  let d := { d with hg := (d.h 0).about (d.com 0) }
  let d := { d with dhg := (d.f 0).about (d.com 0) }
  { d with vcom := upd d.vcom 0 (d.hg.lin.divS (d.mass 0)) }

/-- `computeCentroidalMomentumTimeVariation(model, data, q, v, a)`, `algorithm/centroidal.hxx:434-451`. -/
def computeCentroidalMomentumTimeVariation (s : Sys K) (d : Data K) (q v a : ℕ → K) : Data K :=
  computeCentroidalMomentumTimeVariationD s (forwardKinematicsA s d q v a)
end field

variable {K : Type*} [Field K] [LinearOrder K] [HasEps K]

/-- `CcrbaBackwardStep::algo`, `algorithm/centroidal.hxx:115-149`. -/
def ccrbaBwd (s : Sys K) (i : ℕ) (d : Data K) : Data K :=
  let d := { d with J := putSeg d.J (s.iv i) (s.jnv i) (fun k => (d.oMi i).act ((d.joints i).S k)) }
  let d := { d with
    Ag := putSeg d.Ag (s.iv i) (s.jnv i) (fun k => d.Ag (s.iv i + k) + (d.oYcrb i).mul (d.J (s.iv i + k))) }
  { d with oYcrb := upd d.oYcrb (s.par i) (Inertia.addAssign (d.oYcrb (s.par i)) (d.oYcrb i)) }

/-- `for i < nv: A_ang.col(i) += A_lin.col(i).cross(c)` -/
def aboutCols (n : ℕ) (A : ℕ → Force K) (c : V3 K) : ℕ → Force K := fun r => if r < n then (A r).about c else A r

/-- `computeCentroidalMap`, `algorithm/centroidal.hxx:204-246`. -/
def computeCentroidalMap (s : Sys K) (d : Data K) (q : ℕ → K) : Data K :=
  let d := forwardKinematics s d q
  let d := { d with oYcrb := upd d.oYcrb 0 0 }
  let d := fwd (fun i (d : Data K) => { d with oYcrb := upd d.oYcrb i ((s.Y i).act (d.oMi i)) }) s.n d
  let d := { d with Ag := fun _ => 0 }
  let d := bwd (ccrbaBwd s) s.n d
  let d := { d with com := upd d.com 0 (d.oYcrb 0).lever }
  { d with Ag := aboutCols s.nv d.Ag (d.com 0) }

/-- `data.Ag * v` -/
def mulCols (n : ℕ) (A : ℕ → Force K) (v : ℕ → K) : Force K := ∑ r ∈ range n, v r • A r

/-- `ccrba`, `algorithm/centroidal.hxx:151-201`: `computeCentroidalMap` followed by `hg` and `Ig`. -/
def ccrba (s : Sys K) (d : Data K) (q v : ℕ → K) : Data K :=
  let d := computeCentroidalMap s d q
  let d := { d with hg := mulCols s.nv d.Ag v }
  { d with Ig := ⟨(d.oYcrb 0).mass, 0, (d.oYcrb 0).rotI⟩ }

/-- `DCcrbaBackwardStep::algo`, `algorithm/centroidal.hxx:248-295`. -/
def dccrbaBwd (s : Sys K) (i : ℕ) (d : Data K) : Data K :=
  let Y := d.oYcrb i
  let dY := d.doYcrb i
  let d := { d with J := putSeg d.J (s.iv i) (s.jnv i) (fun k => (d.oMi i).act ((d.joints i).S k)) }
  let d := { d with dJ := putSeg d.dJ (s.iv i) (s.jnv i) (fun k => (d.ov i).cross (d.J (s.iv i + k))) }
  let d := { d with oYcrb := upd d.oYcrb (s.par i) (Inertia.addAssign (d.oYcrb (s.par i)) Y) }
  let d := if s.par i > 0 then { d with doYcrb := upd d.doYcrb (s.par i) (d.doYcrb (s.par i) + dY) } else d
  let d := { d with Ag := putSeg d.Ag (s.iv i) (s.jnv i) (fun k => Y.mul (d.J (s.iv i + k))) }
  let d := { d with dAg := putSeg d.dAg (s.iv i) (s.jnv i) (fun k => dY.mulMF (d.J (s.iv i + k))) }
  { d with
    dAg := putSeg d.dAg (s.iv i) (s.jnv i) (fun k => d.dAg (s.iv i + k) + Y.mul (d.dJ (s.iv i + k))) }

/-- loop body before the backward pass, `algorithm/centroidal.hxx:323-328` -/
def dccrbaFwd (s : Sys K) (i : ℕ) (d : Data K) : Data K :=
  let d := { d with oYcrb := upd d.oYcrb i ((s.Y i).act (d.oMi i)) }
  let d := { d with ov := upd d.ov i ((d.oMi i).act (d.v i)) }
  { d with doYcrb := upd d.doYcrb i ((d.oYcrb i).variation (d.ov i)) }

/-- common part of `dccrba` and `computeCentroidalMapTimeVariation`, `algorithm/centroidal.hxx:321-345`, `383-406` -/
def dccrbaCommon (s : Sys K) (d : Data K) (q v : ℕ → K) : Data K :=
  let d := forwardKinematicsV s d q v
  let d := { d with oYcrb := upd d.oYcrb 0 0 }
  let d := fwd (dccrbaFwd s) s.n d
  let d := bwd (dccrbaBwd s) s.n d
  let d := { d with com := upd d.com 0 (d.oYcrb 0).lever }
  { d with Ag := aboutCols s.nv d.Ag (d.com 0) }

/-- `for i < nv: dAg_ang.col(i) += dAg_lin.col(i).cross(com) + Ag_lin.col(i).cross(vcom)` -/
def daboutCols (n : ℕ) (A dA : ℕ → Force K) (c vc : V3 K) : ℕ → Force K := fun r =>
  if r < n then ⟨(dA r).lin, (dA r).ang + ((dA r).lin.cross c + (A r).lin.cross vc)⟩ else dA r

/-- `dccrba`, `algorithm/centroidal.hxx:297-357`. -/
def dccrba (s : Sys K) (d : Data K) (q v : ℕ → K) : Data K :=
  let d := dccrbaCommon s d q v
  let d := { d with hg := mulCols s.nv d.Ag v }
  let d := { d with vcom := upd d.vcom 0 (d.hg.lin.divS (d.oYcrb 0).mass) }
  let d := { d with dAg := daboutCols s.nv d.Ag d.dAg (d.com 0) (d.vcom 0) }
  { d with Ig := ⟨(d.oYcrb 0).mass, 0, (d.oYcrb 0).rotI⟩ }

/-- `computeCentroidalMapTimeVariation`, `algorithm/centroidal.hxx:360-416`. -/
def computeCentroidalMapTimeVariation (s : Sys K) (d : Data K) (q v : ℕ → K) : Data K :=
  let d := dccrbaCommon s d q v
  { d with dAg := daboutCols s.nv d.Ag d.dAg (d.com 0) (d.vcom 0) }

end Pin
