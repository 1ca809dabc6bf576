import Verif.Algo.Crba
import Verif.Algo.Delassus
import Verif.Model.DataTables
import Verif.Model.ToSys

/-! # `algorithm/crba.hxx` on models with mimic joints

`Sys.iv i` is `idx_v` of joint `i`: for a mimic joint, that of the joint it follows; `Sys.jnv i` is its `nvExtended`. The table
`MimTab` holds what the algorithm reads besides: which joints are mimic joints, `idx_vExtended`, `nvs`, `data.nvSubtree`,
`model.mimicking_joints` with `data.mimic_subtree_joint`, and `model.supports`.

Accesses out of the range of `data.M`, `data.Ag`, `supports` or of the temporary block are undefined behaviour: `crbaWorldOk`,
`crbaLocalOk` say when there are none. They only depend on the tables. Assertions are compiled out. -/

namespace Pin

/-- the tables read by `crba` on a model with mimic joints -/
structure MimTab where
  /-- for a mimic joint, the joint it follows -/
  mim : ℕ → Option ℕ
  /-- `idx_vExtended` -/
  ivx : ℕ → ℕ
  /-- `model.nvExtended` -/
  nvx : ℕ
  /-- `model.nvs` -/
  nvs : ℕ → ℕ
  /-- `data.nvSubtree` -/
  nvSub : ℕ → ℤ
  /-- `model.mimicking_joints` with `data.mimic_subtree_joint` -/
  mims : List (ℕ × ℕ)
  /-- `model.supports` -/
  sup : ℕ → List ℕ

/-- The tables of a model and of the `Data` built from it (`dataTables`); `none` when building the `Data` is undefined behaviour. -/
def Model.mimTab {K P : Type*} (m : Model K P) : Option MimTab := do
  let T ← m.dataTables
  some {
    mim := fun i => (m.joints[i]?.bind (·.desc.mimic)).map (·.1)
    ivx := fun i => (m.joints[i]?.map (·.idx_vx)).getD 0
    nvx := m.nvx
    nvs := fun i => m.nvs.getD i 0
    nvSub := fun i => T.nvSubtree.getD i 0
    mims := m.mimicking.zip T.mimicSubtree
    sup := fun i => m.supports.getD i [] }

variable {K : Type*} [Field K] [LinearOrder K] [HasEps K]

/-- `A.block(i, j, m, n) += B` -/
def addBlock (A : ℕ → ℕ → K) (i j m n : ℕ) (B : ℕ → ℕ → K) : ℕ → ℕ → K :=
  fun r c => if (i ≤ r ∧ r < i + m) ∧ (j ≤ c ∧ c < j + n) then A r c + B (r - i) (c - j) else A r c

/-- The system as `jointExtendedModelCols` sees it: the columns of `data.J` are those of `idx_vExtended`. -/
def Sys.ext (s : Sys K) (t : MimTab) : Sys K := { s with iv := t.ivx, nv := t.nvx, arm := fun _ => 0 }

/-- The supports of a mimicking joint from its parent up to the universe, in the order in which the loops visit them:
`j` from `supports.size() - 2` down to `0`, `algorithm/crba.hxx:178-179, 411-412`. -/
def MimTab.up (t : MimTab) (i : ℕ) : List ℕ := (t.sup i).dropLast.reverse

/-- the joints visited by the first loop, `algorithm/crba.hxx:185, 417` -/
def MimTab.up1 (s : Sys K) (t : MimTab) (i : ℕ) : List ℕ := (t.up i).takeWhile (fun p => decide (s.iv i ≤ s.iv p))

/-- the joints visited by the second loop, which stops before `j = 0`, `algorithm/crba.hxx:202, 434` -/
def MimTab.up2 (s : Sys K) (t : MimTab) (i : ℕ) : List ℕ :=
  ((t.up i).dropWhile (fun p => decide (s.iv i ≤ s.iv p))).dropLast

/-! ## world convention -/

/-- `CrbaWorldConventionBackwardStep::algo_impl`, `algorithm/crba.hxx:78-99`, and for a mimic joint `101-109`. -/
def crbaWorldBwdM (s : Sys K) (t : MimTab) (i : ℕ) (d : Data K) : Data K :=
  let d := if (t.mim i).isSome then d else
    let d := { d with Ag := putSeg d.Ag (s.iv i) (s.jnv i) (fun k => (d.oYcrb i).mul (d.J (t.ivx i + k))) }
    { d with
      M := putBlock d.M (s.iv i) (s.iv i) (s.jnv i) (t.nvSub i).toNat
        (fun r c => (d.J (t.ivx i + r)).dot (d.Ag (s.iv i + c))) }
  { d with oYcrb := upd d.oYcrb (s.par i) (Inertia.addAssign (d.oYcrb (s.par i)) (d.oYcrb i)) }

/-- one turn of the first loop of the mimic step, `algorithm/crba.hxx:185-200`; `p` is `supports[j]`, `temp_JAG` is not
transposed -/
def crbaWorldUp1 (s : Sys K) (t : MimTab) (i : ℕ) (J : ℕ → Motion K) (AgSec : ℕ → Force K) (M : ℕ → ℕ → K) (p : ℕ) :
    ℕ → ℕ → K :=
  let temp := fun a b => (J (t.ivx p + a)).dot (AgSec b)
  let M := addBlock M (s.iv i) (s.iv p) (s.jnv i) (t.nvs p) temp
  if t.mim i = some p then addBlock M (s.iv i) (s.iv p) (s.jnv i) (t.nvs p) temp else M

/-- one turn of the second loop of the mimic step, `algorithm/crba.hxx:202-211` -/
def crbaWorldUp2 (s : Sys K) (t : MimTab) (i : ℕ) (J : ℕ → Motion K) (AgSec : ℕ → Force K) (M : ℕ → ℕ → K) (p : ℕ) :
    ℕ → ℕ → K :=
  addBlock M (s.iv p) (s.iv i) (t.nvs p) (s.jnv i) (fun a b => (J (t.ivx p + a)).dot (AgSec b))

/-- `CrbaWorldConventionMimicStep::algo_impl`, `algorithm/crba.hxx:147-217`, for `x = (mimicking_id, sub_mimic_id)`. -/
def crbaWorldMimicStep (s : Sys K) (t : MimTab) (d : Data K) (x : ℕ × ℕ) : Data K :=
  let i := x.1
  let AgSec := fun k => (d.oYcrb i).mul (d.J (t.ivx i + k))
  let M := addBlock d.M (s.iv i) (s.iv i) (s.jnv i) (s.jnv i) (fun a b => (d.J (t.ivx i + a)).dot (AgSec b))
  let M := if x.2 ≠ 0 then
    addBlock M (s.iv i) (s.iv x.2) (s.jnv i) (t.nvSub x.2).toNat
      (fun a b => (d.J (t.ivx i + a)).dot (d.Ag (s.iv x.2 + b))) else M
  let M := (t.up1 s i).foldl (crbaWorldUp1 s t i d.J AgSec) M
  let M := (t.up2 s i).foldl (crbaWorldUp2 s t i d.J AgSec) M
  { d with
    M := M
    Ag := putSeg d.Ag (s.iv i) (s.jnv i) (fun k => d.Ag (s.iv i + k) + (d.oYcrb i).mul (d.J (t.ivx i + k))) }

/-- `data.M.diagonal() += model.armature` and the centroidal momentum map, `algorithm/crba.hxx:531-547` -/
def crbaWorldEnd (s : Sys K) (d : Data K) : Data K :=
  let d := addArmature s d
  let d := { d with mass := upd d.mass 0 (d.oYcrb 0).mass, com := upd d.com 0 (d.oYcrb 0).lever }
  { d with
    Ag := fun c => if c < s.nv then
      ⟨(d.Ag c).lin, (d.Ag c).ang + (d.Ag c).lin.cross (d.com 0)⟩ else d.Ag c }

/-- `nvSubtree` columns from `idx_v` are a block of a matrix with `nv` columns -/
def colsOk (s : Sys K) (t : MimTab) (i : ℕ) : Bool := decide (0 ≤ t.nvSub i ∧ s.iv i + t.nvSub i ≤ s.nv)

/-- No access of the step of a mimicking joint is out of range: the columns of `sub_mimic_id`, the first loop stops before it
goes past the universe, and `temp_JAG`, of size `nvExtended` of the support by `nvExtended` of the mimic joint, covers the block
it is added to, of size `nvExtended` of the mimic joint by `nv` of the support; `algorithm/crba.hxx:171-200, 397-433`. -/
def mimicStepOk (s : Sys K) (t : MimTab) (x : ℕ × ℕ) : Bool :=
  (x.2 == 0 || colsOk s t x.2) && (t.up x.1).any (fun p => decide (s.iv p < s.iv x.1)) &&
  (t.up1 s x.1).all (fun p => decide (t.nvs p = 0 ∨ s.jnv x.1 ≤ s.jnv p ∧ t.nvs p ≤ s.jnv x.1))

/-- no access of `crba` is out of range -/
def crbaOk (s : Sys K) (t : MimTab) : Bool :=
  (List.range' 1 (s.n - 1)).all (fun i => (t.mim i).isSome || colsOk s t i) && t.mims.all (mimicStepOk s t)

/-- `crbaWorldConvention`, `algorithm/crba.hxx:493-548`; `none` is undefined behaviour -/
def crbaWorldM (s : Sys K) (t : MimTab) (d : Data K) (q : ℕ → K) : Option (Data K) :=
  if crbaOk s t then
    let d := { d with oYcrb := upd d.oYcrb 0 0 }
    let d := fwd (crbaWorldFwd (s.ext t) q) s.n d
    let d := bwd (crbaWorldBwdM s t) s.n d
    let d := t.mims.foldl (crbaWorldMimicStep s t) d
    some (crbaWorldEnd s d)
  else none

/-! ## local convention -/

/-- `CrbaLocalConventionBackwardStep::algo_impl`, `algorithm/crba.hxx:274-309`, and for a mimic joint `311-338`. -/
def crbaLocalBwdM (s : Sys K) (t : MimTab) (i : ℕ) (d : Data K) : Data K :=
  if (t.mim i).isSome then
    if s.par i > 0 then
      let d := { d with
        Ycrb := upd d.Ycrb (s.par i)
          (Inertia.addAssign (d.Ycrb (s.par i)) ((d.Ycrb i).act (d.liMi i))) }
      { d with
        Fcrb := upd d.Fcrb (s.par i) (fun c => if c < s.nv then
          d.Fcrb (s.par i) c + (d.liMi i).actF (d.Fcrb i c) else d.Fcrb (s.par i) c) }
    else d
  else
    let d := { d with
      Fcrb := upd d.Fcrb i (putSeg (d.Fcrb i) (s.iv i) (s.jnv i)
        (fun k => (d.Ycrb i).mul ((d.joints i).S k))) }
    let d := { d with
      M := putBlock d.M (s.iv i) (s.iv i) (s.jnv i) (t.nvSub i).toNat
        (fun r c => ((d.joints i).S r).dot (d.Fcrb i (s.iv i + c))) }
    if s.par i > 0 then
      let d := { d with
        Ycrb := upd d.Ycrb (s.par i)
          (Inertia.addAssign (d.Ycrb (s.par i)) ((d.Ycrb i).act (d.liMi i))) }
      { d with
        Fcrb := upd d.Fcrb (s.par i) (putSeg (d.Fcrb (s.par i)) (s.iv i) (t.nvSub i).toNat
          (fun c => (d.liMi i).actF (d.Fcrb i (s.iv i + c)))) }
    else d

/-- the state of the loops of the local mimic step: `M`, the columns of the mimic joint in `F`, and `supports[j + 1]` -/
structure LUp (K : Type*) where
  M : ℕ → ℕ → K
  F : ℕ → Force K
  child : ℕ

/-- one turn of the first loop of the local mimic step, `algorithm/crba.hxx:417-433` -/
def crbaLocalUp1 (s : Sys K) (t : MimTab) (i : ℕ) (d : Data K) (u : LUp K) (p : ℕ) : LUp K :=
  let F := fun b => (d.liMi u.child).actF (u.F b)
  let temp := fun a b => ((d.joints p).S a).dot (F b)
  let M := addBlock u.M (s.iv i) (s.iv p) (s.jnv i) (t.nvs p) temp
  ⟨if t.mim i = some p then addBlock M (s.iv i) (s.iv p) (s.jnv i) (t.nvs p) temp else M, F, p⟩

/-- one turn of the second loop of the local mimic step, `algorithm/crba.hxx:434-445` -/
def crbaLocalUp2 (s : Sys K) (t : MimTab) (i : ℕ) (d : Data K) (u : LUp K) (p : ℕ) : LUp K :=
  let F := fun b => (d.liMi u.child).actF (u.F b)
  ⟨addBlock u.M (s.iv p) (s.iv i) (t.nvs p) (s.jnv i) (fun a b => ((d.joints p).S a).dot (F b)), F, p⟩

/-- `CrbaLocalConventionMimicStep::algo_impl`, `algorithm/crba.hxx:381-446`. -/
def crbaLocalMimicStep (s : Sys K) (t : MimTab) (d : Data K) (x : ℕ × ℕ) : Data K :=
  let i := x.1
  let F := putSeg (d.Fcrb i) (s.iv i) (s.jnv i) (fun k => (d.Ycrb i).mul ((d.joints i).S k))
  let M := addBlock d.M (s.iv i) (s.iv i) (s.jnv i) (s.jnv i) (fun a b => ((d.joints i).S a).dot (F (s.iv i + b)))
  let M := if x.2 ≠ 0 then
    addBlock M (s.iv i) (s.iv x.2) (s.jnv i) (t.nvSub x.2).toNat
      (fun a b => ((d.joints i).S a).dot (F (s.iv x.2 + b))) else M
  let u := (t.up1 s i).foldl (crbaLocalUp1 s t i d) ⟨M, fun b => F (s.iv i + b), i⟩
  let u := (t.up2 s i).foldl (crbaLocalUp2 s t i d) u
  { d with M := u.M, Fcrb := upd d.Fcrb i (putSeg F (s.iv i) (s.jnv i) u.F) }

/-- `crbaLocalConvention`, `algorithm/crba.hxx:450-485`; `none` is undefined behaviour -/
def crbaLocalM (s : Sys K) (t : MimTab) (d : Data K) (q : ℕ → K) : Option (Data K) :=
  if crbaOk s t then
    let d := fwd (crbaLocalFwd s q) s.n d
    let d := bwd (crbaLocalBwdM s t) s.n d
    let d := t.mims.foldl (crbaLocalMimicStep s t) d
    some (addArmature s d)
  else none

end Pin
