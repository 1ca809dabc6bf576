import Verif.Algo.Subtree

/-! # `algorithm/crba.hxx`: composite rigid body algorithm, models without mimic joints

Without mimic joints `idx_vExtended = idx_v`, `nvExtended = nv` and the third (mimic) pass is empty. -/

namespace Pin
variable {K : Type*} [Field K] [LinearOrder K] [HasEps K]

/-- `CrbaWorldConventionForwardStep::algo`, `algorithm/crba.hxx:35-58`. -/
def crbaWorldFwd (s : Sys K) (q : ℕ → K) (i : ℕ) (d : Data K) : Data K :=
  let d := { d with joints := upd d.joints i ((s.jt i).calc (s.qs q i) (d.joints i)) }
  let d := { d with liMi := upd d.liMi i (s.pl i * (d.joints i).M) }
  let d := { d with oMi := upd d.oMi i (if s.par i > 0 then d.oMi (s.par i) * d.liMi i else d.liMi i) }
  let d := { d with J := putSeg d.J (s.iv i) (s.jnv i) (fun k => (d.oMi i).act ((d.joints i).S k)) }
  { d with oYcrb := upd d.oYcrb i ((s.Y i).act (d.oMi i)) }

/-- `CrbaWorldConventionBackwardStep::algo_impl`, `algorithm/crba.hxx:78-99`. -/
def crbaWorldBwd (s : Sys K) (i : ℕ) (d : Data K) : Data K :=
  let d := { d with Ag := putSeg d.Ag (s.iv i) (s.jnv i) (fun k => (d.oYcrb i).mul (d.J (s.iv i + k))) }
  let d := { d with
    M := putBlock d.M (s.iv i) (s.iv i) (s.jnv i) (s.nvSub i)
      (fun r c => (d.J (s.iv i + r)).dot (d.Ag (s.iv i + c))) }
  { d with oYcrb := upd d.oYcrb (s.par i) (Inertia.addAssign (d.oYcrb (s.par i)) (d.oYcrb i)) }

/-- `data.M.diagonal() += model.armature` -/
def addArmature (s : Sys K) (d : Data K) : Data K :=
  { d with M := fun r c => if r = c then d.M r c + s.arm r else d.M r c }

/-- `crbaWorldConvention`, `algorithm/crba.hxx:493-548`. -/
def crbaWorld (s : Sys K) (d : Data K) (q : ℕ → K) : Data K :=
  let d := { d with oYcrb := upd d.oYcrb 0 0 }
  let d := fwd (crbaWorldFwd s q) s.n d
  let d := bwd (crbaWorldBwd s) s.n d
  let d := addArmature s d
  let d := { d with mass := upd d.mass 0 (d.oYcrb 0).mass, com := upd d.com 0 (d.oYcrb 0).lever }
  { d with
    Ag := fun c => if c < s.nv then
      ⟨(d.Ag c).lin, (d.Ag c).ang + (d.Ag c).lin.cross (d.com 0)⟩ else d.Ag c }

/-- `CrbaLocalConventionForwardStep::algo`, `algorithm/crba.hxx:233-248`. -/
def crbaLocalFwd (s : Sys K) (q : ℕ → K) (i : ℕ) (d : Data K) : Data K :=
  let d := { d with joints := upd d.joints i ((s.jt i).calc (s.qs q i) (d.joints i)) }
  let d := { d with liMi := upd d.liMi i (s.pl i * (d.joints i).M) }
  { d with Ycrb := upd d.Ycrb i (s.Y i) }

/-- `CrbaLocalConventionBackwardStep::algo_impl`, `algorithm/crba.hxx:274-309`. -/
def crbaLocalBwd (s : Sys K) (i : ℕ) (d : Data K) : Data K :=
  let d := { d with
    Fcrb := upd d.Fcrb i (putSeg (d.Fcrb i) (s.iv i) (s.jnv i)
      (fun k => (d.Ycrb i).mul ((d.joints i).S k))) }
  let d := { d with
    M := putBlock d.M (s.iv i) (s.iv i) (s.jnv i) (s.nvSub i)
      (fun r c => ((d.joints i).S r).dot (d.Fcrb i (s.iv i + c))) }
  if s.par i > 0 then
    let d := { d with
      Ycrb := upd d.Ycrb (s.par i)
        (Inertia.addAssign (d.Ycrb (s.par i)) ((d.Ycrb i).act (d.liMi i))) }
    { d with
      Fcrb := upd d.Fcrb (s.par i) (putSeg (d.Fcrb (s.par i)) (s.iv i) (s.nvSub i)
        (fun c => (d.liMi i).actF (d.Fcrb i (s.iv i + c)))) }
  else d

/-- `crbaLocalConvention`, `algorithm/crba.hxx:450-485`. -/
def crbaLocal (s : Sys K) (d : Data K) (q : ℕ → K) : Data K :=
  let d := fwd (crbaLocalFwd s q) s.n d
  let d := bwd (crbaLocalBwd s) s.n d
  addArmature s d

end Pin
