import Verif.Algo.Rnea
import Mathlib.LinearAlgebra.Matrix.NonsingularInverse

/-! # `algorithm/aba.hxx`: articulated body algorithm -/

namespace Pin
open Finset
variable {K : Type*}

/-- `a * b^T` for `3`-vectors -/
def M3.outer [Mul K] (a b : V3 K) : M3 K :=
  ⟨a.x * b.x, a.x * b.y, a.x * b.z, a.y * b.x, a.y * b.y, a.y * b.z, a.z * b.x, a.z * b.y, a.z * b.z⟩

/-- `a * b^T` for `6`-vectors -/
def M6.outer [Mul K] (a b : Force K) : M6 K where
  ll := M3.outer a.lin b.lin
  la := M3.outer a.lin b.ang
  al := M3.outer a.ang b.lin
  aa := M3.outer a.ang b.ang

section field
variable [Field K]

/-- the leading `n × n` block as a matrix -/
def blockMat (n : ℕ) (A : ℕ → ℕ → K) : Matrix (Fin n) (Fin n) K := Matrix.of fun i j => A i j

/-- Inverse of the leading `n × n` block. The code inverts `StU` (symmetric positive definite for physical
models) with a dense Cholesky solve of the identity,
`internal::PerformStYSInversion::run`, `joint/joint-common-operations.hpp:23-45`; modelled by the inverse
matrix `adj / det`, which is what the solve returns in exact arithmetic when the matrix is invertible. -/
def invBlock (n : ℕ) (A : ℕ → ℕ → K) : ℕ → ℕ → K := fun i j =>
  if h : i < n ∧ j < n then (blockMat n A).det⁻¹ * (blockMat n A).adjugate ⟨i, h.1⟩ ⟨j, h.2⟩ else 0

/-- `jmodel.calc_aba(jdata, armature, I, ·)`: `U = I S`, `StU = S^T U + diag(armature)`, `Dinv = StU^{-1}`,
`UDinv = U Dinv`; the same lines for every joint type, `joint/joint-*.hpp: calc_aba` (e.g.
`joint-revolute.hpp`, `joint-free-flyer.hpp`, `joint-composite.hpp`), specialised there to the sparsity of
`S`. The world convention has the same lines with `S` in the world frame, `aba.hxx:172-183`. -/
def JD.calcAba (jd : JD K) (n : ℕ) (S : ℕ → Motion K) (arm : ℕ → K) (I : M6 K) : JD K :=
  let jd := { jd with U := fun k => I.mulMF (S k) }
  let jd := { jd with StU := fun r c => (S r).dot (jd.U c) + if r = c then arm r else 0 }
  let jd := { jd with Dinv := invBlock n jd.StU }
  { jd with UDinv := fun c => ∑ k ∈ range n, jd.Dinv k c • jd.U k }

/-- `I - UDinv * U^T` -/
def JD.down (jd : JD K) (n : ℕ) (I : M6 K) : M6 K := I - ∑ k ∈ range n, M6.outer (jd.UDinv k) (jd.U k)

/-! ## local convention -/

/-- `AbaLocalConventionForwardStep1::algo`, `aba.hxx:375-401`. -/
def abaLocalFwd1 (s : Sys K) (q v : ℕ → K) (i : ℕ) (d : Data K) : Data K :=
  let d := { d with joints := upd d.joints i ((s.jt i).calcV (s.qs q i) (s.vs v i) (d.joints i)) }
  let d := { d with liMi := upd d.liMi i (s.pl i * (d.joints i).M) }
  let d := { d with v := upd d.v i (d.joints i).v }
  let d := if s.par i > 0 then
      { d with v := upd d.v i (d.v i + (d.liMi i).actInv (d.v (s.par i))) }
    else d
  let d := { d with a_gf := upd d.a_gf i ((d.joints i).c + (d.v i).cross (d.joints i).v) }
  let d := { d with Yaba := upd d.Yaba i (s.Y i).matrix }
  let d := { d with h := upd d.h i ((s.Y i).mul (d.v i)) }
  { d with f := upd d.f i ((d.v i).crossF (d.h i)) }

/-- `AbaLocalConventionBackwardStep::algo`, `aba.hxx:414-441`. -/
def abaLocalBwd (s : Sys K) (i : ℕ) (d : Data K) : Data K :=
  let d := { d with u := addSeg d.u (s.iv i) (s.jnv i) (fun k => -(StF (d.joints i).S (d.f i) k)) }
  let d := { d with
    joints := upd d.joints i ((d.joints i).calcAba (s.jnv i) (d.joints i).S (seg s.arm (s.iv i)) (d.Yaba i)) }
  if s.par i > 0 then
    let d := { d with Yaba := upd d.Yaba i ((d.joints i).down (s.jnv i) (d.Yaba i)) }
    let d := { d with
      f := upd d.f i (d.f i + ((d.Yaba i).mulMF (d.a_gf i)
        + ∑ k ∈ range (s.jnv i), d.u (s.iv i + k) • (d.joints i).UDinv k)) }
    let d := { d with Yaba := upd d.Yaba (s.par i) (d.Yaba (s.par i) + (d.liMi i).actOn (d.Yaba i)) }
    { d with f := upd d.f (s.par i) (d.f (s.par i) + (d.liMi i).actF (d.f i)) }
  else d

/-- `AbaLocalConventionForwardStep2::algo`, `aba.hxx:454-475`. -/
def abaLocalFwd2 (s : Sys K) (i : ℕ) (d : Data K) : Data K :=
  let d := { d with a_gf := upd d.a_gf i (d.a_gf i + (d.liMi i).actInv (d.a_gf (s.par i))) }
  let d := { d with
    ddq := putSeg d.ddq (s.iv i) (s.jnv i) (fun k =>
      (∑ l ∈ range (s.jnv i), (d.joints i).Dinv k l * d.u (s.iv i + l)) - (d.a_gf i).dot ((d.joints i).UDinv k)) }
  let d := { d with a_gf := upd d.a_gf i (d.a_gf i + comb (d.joints i).S (s.jnv i) (seg d.ddq (s.iv i))) }
  let d := { d with a := upd d.a i (d.a_gf i) }
  let d := { d with
    a := upd d.a i ⟨(d.a i).lin + (d.oMi i).rot.tr.mulVec s.grav.lin, (d.a i).ang⟩ }
  { d with f := upd d.f i ((s.Y i).mul (d.a_gf i) + (d.v i).crossF (d.h i)) }

/-- the last loop: `data.f[parent] += data.liMi[i].act(data.f[i])`, `aba.hxx:541-545, 608-612` -/
def abaLocalEnd (s : Sys K) (i : ℕ) (d : Data K) : Data K :=
  { d with f := upd d.f (s.par i) (d.f (s.par i) + (d.liMi i).actF (d.f i)) }

/-- `abaLocalConvention(model, data, q, v, tau)`, `aba.hxx:478-540`; the result is `data.ddq`. -/
def abaLocal (s : Sys K) (d : Data K) (q v tau : ℕ → K) : Data K :=
  let d := { d with v := upd d.v 0 0, a_gf := upd d.a_gf 0 (-s.grav), f := upd d.f 0 0, u := tau }
  let d := fwd (abaLocalFwd1 s q v) s.n d
  let d := bwd (abaLocalBwd s) s.n d
  let d := fwd (abaLocalFwd2 s) s.n d
  bwd (abaLocalEnd s) s.n d

/-- `abaLocalConvention(model, data, q, v, tau, fext)`, `aba.hxx:542-606`. -/
def abaLocalFext (s : Sys K) (d : Data K) (q v tau : ℕ → K) (fext : ℕ → Force K) : Data K :=
  let d := { d with v := upd d.v 0 0, a_gf := upd d.a_gf 0 (-s.grav), u := tau }
  let d := fwd (fun i d =>
    let d := abaLocalFwd1 s q v i d
    { d with f := upd d.f i (d.f i - fext i) }) s.n d
  let d := bwd (abaLocalBwd s) s.n d
  let d := fwd (abaLocalFwd2 s) s.n d
  bwd (abaLocalEnd s) s.n d

/-! ## world convention -/

/-- `AbaWorldConventionForwardStep1::algo`, `aba.hxx:100-138`. -/
def abaWorldFwd1 (s : Sys K) (q v : ℕ → K) (i : ℕ) (d : Data K) : Data K :=
  let d := { d with joints := upd d.joints i ((s.jt i).calcV (s.qs q i) (s.vs v i) (d.joints i)) }
  let d := { d with liMi := upd d.liMi i (s.pl i * (d.joints i).M) }
  let d := { d with oMi := upd d.oMi i (if s.par i > 0 then d.oMi (s.par i) * d.liMi i else d.liMi i) }
  let d := { d with J := putSeg d.J (s.iv i) (s.jnv i) (fun k => (d.oMi i).act ((d.joints i).S k)) }
  let d := { d with ov := upd d.ov i ((d.oMi i).act (d.joints i).v) }
  let d := if s.par i > 0 then { d with ov := upd d.ov i (d.ov i + d.ov (s.par i)) } else d
  let d := { d with oa_gf := upd d.oa_gf i ((d.oMi i).act (d.joints i).c) }
  let d := if s.par i > 0 then
      { d with oa_gf := upd d.oa_gf i (d.oa_gf i + (d.ov (s.par i)).cross (d.ov i)) }
    else d
  let d := { d with oYcrb := upd d.oYcrb i ((s.Y i).act (d.oMi i)) }
  let d := { d with oinertias := upd d.oinertias i (d.oYcrb i) }
  let d := { d with oYaba := upd d.oYaba i (d.oYcrb i).matrix }
  let d := { d with oh := upd d.oh i ((d.oYcrb i).mul (d.ov i)) }
  { d with of := upd d.of i ((d.ov i).crossF (d.oh i)) }

/-- `AbaWorldConventionBackwardStep::algo`, `aba.hxx:151-192`. -/
def abaWorldBwd (s : Sys K) (i : ℕ) (d : Data K) : Data K :=
  let S := seg d.J (s.iv i)
  let d := { d with u := addSeg d.u (s.iv i) (s.jnv i) (fun k => -(StF S (d.of i) k)) }
  let d := { d with
    joints := upd d.joints i ((d.joints i).calcAba (s.jnv i) S (seg s.arm (s.iv i)) (d.oYaba i)) }
  if s.par i > 0 then
    let d := { d with oYaba := upd d.oYaba i ((d.joints i).down (s.jnv i) (d.oYaba i)) }
    let d := { d with
      of := upd d.of i (d.of i + ((d.oYaba i).mulMF (d.oa_gf i)
        + ∑ k ∈ range (s.jnv i), d.u (s.iv i + k) • (d.joints i).UDinv k)) }
    let d := { d with oYaba := upd d.oYaba (s.par i) (d.oYaba (s.par i) + d.oYaba i) }
    { d with of := upd d.of (s.par i) (d.of (s.par i) + d.of i) }
  else d

/-- `AbaWorldConventionForwardStep2::algo`, `aba.hxx:205-231`. -/
def abaWorldFwd2 (s : Sys K) (i : ℕ) (d : Data K) : Data K :=
  let d := { d with oa_gf := upd d.oa_gf i (d.oa_gf i + d.oa_gf (s.par i)) }
  let d := { d with
    ddq := putSeg d.ddq (s.iv i) (s.jnv i) (fun k =>
      (∑ l ∈ range (s.jnv i), (d.joints i).Dinv k l * d.u (s.iv i + l)) - (d.oa_gf i).dot ((d.joints i).UDinv k)) }
  let d := { d with
    oa_gf := upd d.oa_gf i (d.oa_gf i + comb (seg d.J (s.iv i)) (s.jnv i) (seg d.ddq (s.iv i))) }
  let d := { d with oa := upd d.oa i (d.oa_gf i + s.grav) }
  { d with of := upd d.of i ((d.oinertias i).mul (d.oa_gf i) + (d.ov i).crossF (d.oh i)) }

/-- the last loop: `data.of[parent] += data.of[i]`, `aba.hxx:298-302` -/
def abaWorldEnd (s : Sys K) (i : ℕ) (d : Data K) : Data K :=
  { d with of := upd d.of (s.par i) (d.of (s.par i) + d.of i) }

/-- `abaWorldConvention(model, data, q, v, tau)`, `aba.hxx:234-293`. -/
def abaWorld (s : Sys K) (d : Data K) (q v tau : ℕ → K) : Data K :=
  let d := { d with oa_gf := upd d.oa_gf 0 (-s.grav), of := upd d.of 0 0, u := tau }
  let d := fwd (abaWorldFwd1 s q v) s.n d
  let d := bwd (abaWorldBwd s) s.n d
  let d := fwd (abaWorldFwd2 s) s.n d
  bwd (abaWorldEnd s) s.n d

/-- `abaWorldConvention(model, data, q, v, tau, fext)`, `aba.hxx:295-352`. -/
def abaWorldFext (s : Sys K) (d : Data K) (q v tau : ℕ → K) (fext : ℕ → Force K) : Data K :=
  let d := { d with oa_gf := upd d.oa_gf 0 (-s.grav), u := tau }
  let d := fwd (fun i d =>
    let d := abaWorldFwd1 s q v i d
    { d with of := upd d.of i (d.of i - (d.oMi i).actF (fext i)) }) s.n d
  let d := bwd (abaWorldBwd s) s.n d
  fwd (abaWorldFwd2 s) s.n d

end field
end Pin
