import Verif.Algo.Data

/-! # `algorithm/rnea.hxx`: recursive Newton-Euler family -/

namespace Pin
variable {K : Type*} [CommRing K]

/-- `RneaForwardStep::algo`, `algorithm/rnea.hxx:44-79`. -/
def rneaFwd (s : Sys K) (q v a : ℕ → K) (i : ℕ) (d : Data K) : Data K :=
  let d := { d with joints := upd d.joints i ((s.jt i).calcV (s.qs q i) (s.vs v i) (d.joints i)) }
  let d := { d with liMi := upd d.liMi i (s.pl i * (d.joints i).M) }
  let d := { d with v := upd d.v i (d.joints i).v }
  let d := if s.par i > 0 then
      { d with v := upd d.v i (d.v i + (d.liMi i).actInv (d.v (s.par i))) }
    else d
  let d := { d with a_gf := upd d.a_gf i ((d.joints i).c + (d.v i).cross (d.joints i).v) }
  let d := { d with a_gf := upd d.a_gf i (d.a_gf i + comb (d.joints i).S (s.jnv i) (s.vs a i)) }
  let d := { d with a_gf := upd d.a_gf i (d.a_gf i + (d.liMi i).actInv (d.a_gf (s.par i))) }
  let d := { d with h := upd d.h i ((s.Y i).mul (d.v i)) }
  let d := { d with f := upd d.f i ((s.Y i).mul (d.a_gf i)) }
  { d with f := upd d.f i (d.f i + (d.v i).crossF (d.h i)) }

/-- `if (parent > 0) data.f[parent] += data.liMi[i].act(data.f[i])` -/
def pushF (s : Sys K) (i : ℕ) (d : Data K) : Data K :=
  if s.par i > 0 then { d with f := upd d.f (s.par i) (d.f (s.par i) + (d.liMi i).actF (d.f i)) } else d

/-- `S^T * f` -/
def StF (S : ℕ → Motion K) (f : Force K) : ℕ → K := fun k => (S k).dot f

/-- `RneaBackwardStep::algo`, `algorithm/rnea.hxx:91-107`. -/
def rneaBwd (s : Sys K) (i : ℕ) (d : Data K) : Data K :=
  pushF s i { d with tau := addSeg d.tau (s.iv i) (s.jnv i) (StF (d.joints i).S (d.f i)) }

/-- `rnea(model, data, q, v, a)`, `algorithm/rnea.hxx:111-160`; the result is `data.tau`. -/
def rnea (s : Sys K) (d : Data K) (q v a : ℕ → K) : Data K :=
  let d := { d with tau := fun _ => 0, v := upd d.v 0 0, a_gf := upd d.a_gf 0 (-s.grav) }
  let d := fwd (rneaFwd s q v a) s.n d
  let d := bwd (rneaBwd s) s.n d
  { d with tau := fun r => d.tau r + s.arm r * a r }

/-- `rnea(model, data, q, v, a, fext)`, `algorithm/rnea.hxx:163-219`. -/
def rneaFext (s : Sys K) (d : Data K) (q v a : ℕ → K) (fext : ℕ → Force K) : Data K :=
  let d := { d with tau := fun _ => 0, v := upd d.v 0 0, a_gf := upd d.a_gf 0 (-s.grav) }
  let d := fwd (fun i d =>
    let d := rneaFwd s q v a i d
    { d with f := upd d.f i (d.f i - fext i) }) s.n d
  let d := bwd (rneaBwd s) s.n d
  { d with tau := fun r => d.tau r + s.arm r * a r }

/-- `NLEForwardStep::algo`, `algorithm/rnea.hxx:238-263`. -/
def nleFwd (s : Sys K) (q v : ℕ → K) (i : ℕ) (d : Data K) : Data K :=
  let d := { d with joints := upd d.joints i ((s.jt i).calcV (s.qs q i) (s.vs v i) (d.joints i)) }
  let d := { d with liMi := upd d.liMi i (s.pl i * (d.joints i).M) }
  let d := { d with v := upd d.v i (d.joints i).v }
  let d := if s.par i > 0 then
      { d with v := upd d.v i (d.v i + (d.liMi i).actInv (d.v (s.par i))) }
    else d
  let d := { d with a_gf := upd d.a_gf i ((d.joints i).c + (d.v i).cross (d.joints i).v) }
  let d := { d with a_gf := upd d.a_gf i (d.a_gf i + (d.liMi i).actInv (d.a_gf (s.par i))) }
  { d with f := upd d.f i ((s.Y i).mul (d.a_gf i) + (s.Y i).vxiv (d.v i)) }

/-- `NLEBackwardStep::algo`, `algorithm/rnea.hxx:276-292`. -/
def nleBwd (s : Sys K) (i : ℕ) (d : Data K) : Data K :=
  pushF s i { d with nle := addSeg d.nle (s.iv i) (s.jnv i) (StF (d.joints i).S (d.f i)) }

/-- `nonLinearEffects`, `algorithm/rnea.hxx:295-339`. -/
def nonLinearEffects (s : Sys K) (d : Data K) (q v : ℕ → K) : Data K :=
  let d := { d with nle := fun _ => 0, v := upd d.v 0 0, a_gf := upd d.a_gf 0 (-s.grav) }
  let d := fwd (nleFwd s q v) s.n d
  bwd (nleBwd s) s.n d

/-- `ComputeGeneralizedGravityForwardStep::algo`, `algorithm/rnea.hxx:355-374`. -/
def gravFwd (s : Sys K) (q : ℕ → K) (i : ℕ) (d : Data K) : Data K :=
  let d := { d with joints := upd d.joints i ((s.jt i).calc (s.qs q i) (d.joints i)) }
  let d := { d with liMi := upd d.liMi i (s.pl i * (d.joints i).M) }
  let d := { d with a_gf := upd d.a_gf i ((d.liMi i).actInv (d.a_gf (s.par i))) }
  { d with f := upd d.f i ((s.Y i).mul (d.a_gf i)) }

/-- `ComputeGeneralizedGravityBackwardStep::algo` writing `data.g`, `algorithm/rnea.hxx:389-406`. -/
def gravBwd (s : Sys K) (i : ℕ) (d : Data K) : Data K :=
  pushF s i { d with g := addSeg d.g (s.iv i) (s.jnv i) (StF (d.joints i).S (d.f i)) }

/-- `computeGeneralizedGravity`, `algorithm/rnea.hxx:406-446`. -/
def computeGeneralizedGravity (s : Sys K) (d : Data K) (q : ℕ → K) : Data K :=
  let d := { d with g := fun _ => 0, a_gf := upd d.a_gf 0 (-s.grav) }
  let d := fwd (gravFwd s q) s.n d
  let d := { d with g := fun _ => 0 }
  bwd (gravBwd s) s.n d

/-- `computeStaticTorque`, `algorithm/rnea.hxx:448-491` (its backward step writes `data.tau`, as
`rneaBwd` does). -/
def computeStaticTorque (s : Sys K) (d : Data K) (q : ℕ → K) (fext : ℕ → Force K) : Data K :=
  let d := { d with a_gf := upd d.a_gf 0 (-s.grav) }
  let d := fwd (fun i d =>
    let d := gravFwd s q i d
    { d with f := upd d.f i (d.f i - fext i) }) s.n d
  let d := { d with tau := fun _ => 0 }
  bwd (rneaBwd s) s.n d

end Pin
