import Verif.Algo.Aba
import Verif.Algo.Subtree

/-! # `algorithm/aba.hxx`: inverse of the joint-space inertia matrix -/

namespace Pin
open Finset
variable {K : Type*}

/-- A column of `Fcrb[i]` used as a motion: `Fcrb[i]` is a plain `6 × nv` matrix, in which the last pass
stores accelerations, `aba.hxx:826-832`. -/
def Force.asMotion (f : Force K) : Motion K := ⟨f.lin, f.ang⟩

/-- A motion stored in a column of `Fcrb[i]`, `aba.hxx:826-832`. -/
def Motion.asForce (m : Motion K) : Force K := ⟨m.lin, m.ang⟩

section field
variable [Field K]

/-- `ComputeMinverseForwardStep1::algo`, `aba.hxx:622-651`. -/
def minvFwd1 (s : Sys K) (q : ℕ → K) (i : ℕ) (d : Data K) : Data K :=
  let d := { d with joints := upd d.joints i ((s.jt i).calc (s.qs q i) (d.joints i)) }
  let d := { d with liMi := upd d.liMi i (s.pl i * (d.joints i).M) }
  let d := { d with oMi := upd d.oMi i (if s.par i > 0 then d.oMi (s.par i) * d.liMi i else d.liMi i) }
  let d := { d with J := putSeg d.J (s.iv i) (s.jnv i) (fun k => (d.oMi i).act ((d.joints i).S k)) }
  let d := { d with oYcrb := upd d.oYcrb i ((s.Y i).act (d.oMi i)) }
  { d with oYaba := upd d.oYaba i (d.oYcrb i).matrix }

/-- The rows of joint `i`, common to `ComputeMinverseBackwardStep::algo` (`aba.hxx:696-723`) and to
`optimized::ComputeMinverseBackwardStep::algo` (`aba.hxx:754-787`). `data.SDinv` is written here and read
nowhere else: its columns are a local. -/
def minvRows (s : Sys K) (i : ℕ) (d : Data K) : Data K :=
  let jd := d.joints i
  let d := { d with Minv := putBlock d.Minv (s.iv i) (s.iv i) (s.jnv i) (s.jnv i) jd.Dinv }
  if s.nvSub i > s.jnv i then
    let SDinv := fun r => ∑ k ∈ range (s.jnv i), jd.Dinv k r • d.J (s.iv i + k)
    let d := { d with
      Minv := putBlock d.Minv (s.iv i) (s.iv i + s.jnv i) (s.jnv i) (s.nvSub i - s.jnv i)
        (fun r c => -((SDinv r).dot (d.Fcrb 0 (s.iv i + s.jnv i + c)))) }
    if s.par i > 0 then
      { d with
        Fcrb := upd d.Fcrb 0 (putSeg (d.Fcrb 0) (s.iv i) (s.nvSub i)
          (fun c => d.Fcrb 0 (s.iv i + c) + ∑ k ∈ range (s.jnv i), d.Minv (s.iv i + k) (s.iv i + c) • jd.U k)) }
    else d
  else
    { d with
      Fcrb := upd d.Fcrb 0 (putSeg (d.Fcrb 0) (s.iv i) (s.nvSub i)
        (fun c => ∑ k ∈ range (s.jnv i), d.Minv (s.iv i + k) (s.iv i + c) • jd.U k)) }

/-- `ComputeMinverseBackwardStep::algo`, `aba.hxx:664-725`. -/
def minvBwd (s : Sys K) (i : ℕ) (d : Data K) : Data K :=
  let S := seg d.J (s.iv i)
  let d := { d with
    joints := upd d.joints i ((d.joints i).calcAba (s.jnv i) S (seg s.arm (s.iv i)) (d.oYaba i)) }
  let d := minvRows s i d
  if s.par i > 0 then
    let d := { d with oYaba := upd d.oYaba i ((d.joints i).down (s.jnv i) (d.oYaba i)) }
    { d with oYaba := upd d.oYaba (s.par i) (d.oYaba (s.par i) + d.oYaba i) }
  else d

/-- `ComputeMinverseForwardStep2::algo`, `aba.hxx:798-830`; `rightCols(nv - idx_v)` are the columns
`idx_v..nv-1`. -/
def minvFwd2 (s : Sys K) (i : ℕ) (d : Data K) : Data K :=
  let jd := d.joints i
  let d := if s.par i > 0 then
      { d with
        Minv := putBlock d.Minv (s.iv i) (s.iv i) (s.jnv i) (s.nv - s.iv i)
          (fun r c => d.Minv (s.iv i + r) (s.iv i + c)
            - (d.Fcrb (s.par i) (s.iv i + c)).asMotion.dot (jd.UDinv r)) }
    else d
  let d := { d with
    Fcrb := upd d.Fcrb i (putSeg (d.Fcrb i) (s.iv i) (s.nv - s.iv i)
      (fun c => (comb (seg d.J (s.iv i)) (s.jnv i) (fun k => d.Minv (s.iv i + k) (s.iv i + c))).asForce)) }
  if s.par i > 0 then
    { d with
      Fcrb := upd d.Fcrb i (putSeg (d.Fcrb i) (s.iv i) (s.nv - s.iv i)
        (fun c => d.Fcrb i (s.iv i + c) + d.Fcrb (s.par i) (s.iv i + c))) }
  else d

/-- `data.Minv.triangularView<Upper>().setZero()` on the `nv × nv` matrix, `aba.hxx:852, 888` -/
def zeroUpper (nv : ℕ) (M : ℕ → ℕ → K) : ℕ → ℕ → K := fun r c => if r ≤ c ∧ c < nv then 0 else M r c

/-- `computeMinverse(model, data, q)`, `aba.hxx:833-874`; the result is the upper triangle of `data.Minv`. -/
def computeMinverse (s : Sys K) (d : Data K) (q : ℕ → K) : Data K :=
  let d := { d with Minv := zeroUpper s.nv d.Minv }
  let d := fwd (minvFwd1 s q) s.n d
  let d := { d with Fcrb := upd d.Fcrb 0 (fun _ => 0) }
  let d := bwd (minvBwd s) s.n d
  fwd (minvFwd2 s) s.n d

/-- `computeMinverse(model, data)`, `aba.hxx:877-902`; "assumes that ABA has been called first"
(`aba.hpp:112-115`). -/
def computeMinverseNoUpdate (s : Sys K) (d : Data K) : Data K :=
  let d := { d with Minv := zeroUpper s.nv d.Minv }
  let d := { d with Fcrb := upd d.Fcrb 0 (fun _ => 0) }
  let d := bwd (minvRows s) s.n d
  fwd (minvFwd2 s) s.n d

end field
end Pin
