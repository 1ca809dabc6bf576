import Verif.Model.Construction

/-!
# The index tables of a `Data`

Models the part of the constructor `DataTpl(model)` that computes tables from the model (`multibody/data.hxx:196-343`),
and `checkData` / `model.check(data)` (`algorithm/check-data.hxx`).

Conventions: `std::vector`s are lists; reading or writing out of the range of a vector is undefined behaviour, here `none`;
assertions are compiled out. The joint 0 of a model is a default constructed `JointModelRX` with the indexes `-1`
(`multibody/joint/joint-model-base.hpp:592-598`, `multibody/joint/joint-collection.hpp:85-87`).
Not modelled: the other members of `Data` (created with the sizes that `checkData` compares them to, `data.hxx:17-130`).
-/

namespace Pin
variable {K P α : Type*}

/-- `v[i]` -/
def rd (l : List α) (i : ℤ) : Option α := if 0 ≤ i then l[i.toNat]? else none

/-- `v[i] = x` -/
def wr (l : List α) (i : ℤ) (x : α) : Option (List α) :=
  if 0 ≤ i ∧ i.toNat < l.length then some (l.set i.toNat x) else none

/-- what `Data` reads of a joint: `idx_v()`, `nv()`, `idx_vExtended()`, `nvExtended()`, and whether it is a mimic joint -/
structure JRow where
  iv : ℤ
  nv : ℤ
  ivx : ℤ
  nvx : ℤ
  mimic : Bool

/-- the index tables of a `Data`, `multibody/data.hpp` -/
structure Tables where
  lastChild : List ℤ
  nvSubtree : List ℤ
  mimicSubtree : List ℕ
  parentsRow : List ℤ
  mimicParentsRow : List ℤ
  nonMimicParentsRow : List ℤ
  nvSubtreeRow : List ℤ
  startRow : List ℤ
  endRow : List ℤ
  vxToV : List ℤ
  supportsRow : List (List ℤ)

namespace Model
variable (m : Model K P)

/-- `model.joints[i]` -/
def jrow (i : ℤ) : Option JRow :=
  if i = 0 then some ⟨-1, 1, -1, 1, false⟩
  else (rd m.joints i).map fun e => ⟨e.idx_v, e.desc.nv, e.idx_vx, e.desc.nvx, e.desc.mimic.isSome⟩

/-- one turn of the first loop of `computeLastChild`, the part on `lastChild`, `multibody/data.hxx:204-208` -/
def lastTurn (i : ℕ) (last : List ℤ) : Option (List ℤ) := do
  let last ← if (← rd last i) = -1 then wr last i i else some last
  let parent ← rd m.parents i
  wr last parent (max (← rd last i) (← rd last parent))

/-- one turn of the first loop of `computeLastChild`, `multibody/data.hxx:202-226`, on `lastChild` and `nvSubtree` -/
def lastChildTurn (i : ℕ) (s : List ℤ × List ℤ) : Option (List ℤ × List ℤ) := do
  let last ← m.lastTurn i s.1
  let ji ← m.jrow i
  if ji.mimic then
    let sub ← wr s.2 i 0
    some (last, sub)
  else
    let jl ← m.jrow (← rd last i)
    let nv_ := if jl.mimic then jl.nvx else jl.nv
    let sub ← wr s.2 i (jl.iv + nv_ - ji.iv)
    some (last, sub)

/-- a turn of the second loop of `computeLastChild`, `multibody/data.hxx:228-241`: what is pushed into `mimic_subtree_joint`
for a mimicking joint whose entry in `subtrees` is `sub`. When no joint of the subtree after the first moves, the code reads
`sub[sub.size()]`. -/
def mimicSubtreeOf (sub : List ℕ) : Option ℕ :=
  if sub.length = 1 then some 0 else sub.tail.find? (fun d => m.nvs.getD d 0 != 0)

/-- `computeLastChild`, `multibody/data.hxx:196-242` -/
def computeLastChild : Option (List ℤ × List ℤ × List ℕ) := do
  let s ← (List.range m.njoints).reverse.foldlM (fun s i => m.lastChildTurn i s)
    (List.replicate m.njoints (-1), List.replicate m.njoints (-1))
  let ms ← m.mimicking.mapM (fun id => do m.mimicSubtreeOf (← rd m.subtrees id))
  some (s.1, s.2, ms)

/-- the loops `while (id > 0 && c(joints[id])) id = parents[id]`, `multibody/data.hxx:266-272, 281-287`, where `c` says
whether a mimic joint is skipped (`true`) or looked for (`false`); `fuel` bounds the number of turns -/
def skipWhile (skipMimic : Bool) : (fuel : ℕ) → (id : ℕ) → Option ℕ
  | 0, id => some id
  | fuel + 1, id =>
    if id = 0 then some id
    else do
      let j ← m.jrow id
      if j.mimic = skipMimic then
        let p ← rd m.parents id
        skipWhile skipMimic fuel p
      else some id

/-- the row that ends the joint `id`, or `-1` for the universe, `multibody/data.hxx:259-263, 274-279, 289-294` -/
def endRowOf (id : ℕ) : Option ℤ :=
  if id > 0 then do
    let j ← m.jrow id
    some (j.ivx + j.nvx - 1)
  else some (-1)

/-- one turn of the inner loop of `computeParents_fromRow`, `multibody/data.hxx:301-313` -/
def parentsRowInner (jj : JRow) (nvSub : ℤ) (row : ℕ) (T : Tables) : Option Tables := do
  let P ← wr T.parentsRow (jj.ivx + row) (jj.ivx + row - 1)
  let mp ← wr T.mimicParentsRow (jj.ivx + row) (jj.ivx + row - 1)
  let np ← wr T.nonMimicParentsRow (jj.ivx + row) (jj.ivx + row - 1)
  let ns ← wr T.nvSubtreeRow (jj.ivx + row) (nvSub - row)
  let st ← wr T.startRow (jj.ivx + row) (← rd T.startRow jj.ivx)
  let en ← wr T.endRow (jj.ivx + row) (← rd T.endRow jj.ivx)
  let vx ← wr T.vxToV (jj.ivx + row) ((← rd T.vxToV jj.ivx) + row)
  some { T with parentsRow := P, mimicParentsRow := mp, nonMimicParentsRow := np, nvSubtreeRow := ns, startRow := st,
                endRow := en, vxToV := vx }

/-- one turn of the loop of `computeParents_fromRow`, `multibody/data.hxx:250-314` -/
def parentsRowTurn (joint : ℕ) (T : Tables) : Option Tables := do
  let parent ← rd m.parents joint
  let jj ← m.jrow joint
  let P ← wr T.parentsRow jj.ivx (← m.endRowOf parent)
  let np ← wr T.nonMimicParentsRow jj.ivx (← m.endRowOf (← m.skipWhile true m.njoints parent))
  let mp ← wr T.mimicParentsRow jj.ivx (← m.endRowOf (← m.skipWhile false m.njoints parent))
  let nvSub ← rd T.nvSubtree joint
  let ns ← wr T.nvSubtreeRow jj.ivx nvSub
  let st ← wr T.startRow jj.iv jj.iv
  let en ← wr T.endRow jj.iv (jj.iv + jj.nvx - 1)
  let vx ← wr T.vxToV jj.ivx jj.iv
  (List.range' 1 (jj.nvx.toNat - 1)).foldlM (fun T row => parentsRowInner jj nvSub row T)
    { T with parentsRow := P, mimicParentsRow := mp, nonMimicParentsRow := np, nvSubtreeRow := ns, startRow := st,
             endRow := en, vxToV := vx }

/-- one turn of the inner loop of `computeSupports_fromRow`, `multibody/data.hxx:337-341` -/
def supportsInner (iv : ℤ) (row : ℕ) (S : List (List ℤ)) : Option (List (List ℤ)) := do
  wr S (iv + row) ((← rd S (iv + row - 1)) ++ [iv + row])

/-- the first row of a joint in `computeSupports_fromRow`, `multibody/data.hxx:326-334` -/
def supportsFirst (P : List ℤ) (iv : ℤ) (S : List (List ℤ)) : Option (List (List ℤ)) := do
  let p ← rd P iv
  let S ← if p ≥ 0 then wr S iv (← rd S p) else some S
  wr S iv ((← rd S iv) ++ [iv])

/-- one turn of the loop of `computeSupports_fromRow`, `multibody/data.hxx:323-342` -/
def supportsTurn (P : List ℤ) (joint : ℕ) (S : List (List ℤ)) : Option (List (List ℤ)) := do
  let jj ← m.jrow joint
  let S ← supportsFirst P jj.iv S
  (List.range' 1 (jj.nv.toNat - 1)).foldlM (fun S row => supportsInner jj.iv row S) S

/-- the tables of `DataTpl(model)`, `multibody/data.hxx:71-84` (sizes and initial values), `169-181`, `244-343` -/
def dataTables : Option Tables := do
  let (last, sub, ms) ← m.computeLastChild
  let nx := List.replicate m.nvx (-1)
  let T ← (List.range' 1 (m.njoints - 1)).foldlM (fun T j => m.parentsRowTurn j T)
    (⟨last, sub, ms, nx, nx, nx, nx, nx, nx, nx, List.replicate m.nv []⟩ : Tables)
  let S ← (List.range' 1 (m.njoints - 1)).foldlM (fun S j => m.supportsTurn T.parentsRow j S) T.supportsRow
  some { T with supportsRow := S }

/-! ## `checkData` -/

/-- `CHECK_DATA(a); rest`, `algorithm/check-data.hxx:24-26` -/
def chk (a : Option Bool) (rest : Option Bool) : Option Bool :=
  match a with
  | none => none
  | some false => some false
  | some true => rest

/-- a loop of checks -/
def chkAll (f : ℕ → Option Bool) : List ℕ → Option Bool
  | [] => some true
  | i :: t => chk (f i) (chkAll f t)

/-- the sizes of the tables, `algorithm/check-data.hxx:81-89` -/
def checkSizes (T : Tables) : Bool :=
  T.lastChild.length == m.njoints && T.nvSubtree.length == m.njoints && T.parentsRow.length == m.nvx &&
  T.mimicParentsRow.length == m.nvx && T.nonMimicParentsRow.length == m.nvx && T.vxToV.length == m.nvx &&
  T.nvSubtreeRow.length == m.nvx && T.startRow.length == m.nvx && T.endRow.length == m.nvx

/-- the per-joint tables of the model, `algorithm/check-data.hxx:91-101` -/
def checkJoint (j : ℕ) : Option Bool := (rd m.joints j).bind fun e => do
  some ((← rd m.nqs j) == e.desc.nq && (← rd m.idx_qs j) == e.idx_q && (← rd m.nvs j) == e.desc.nv &&
    (← rd m.idx_vs j) == e.idx_v && (← rd m.nvxs j) == e.desc.nvx && (← rd m.idx_vxs j) == e.idx_vx)

/-- the sum of the `nv` of the joints after `j` up to `c`, checked to have parents from `j` on,
`algorithm/check-data.hxx:107-119`; returns `none` inside when the check fails -/
def subtreeNv (j : ℕ) : List ℕ → ℤ → Option (Option ℤ)
  | [], nv => some (some nv)
  | d :: t, nv => do
    if (← rd m.parents d) ≥ j then
      let jd ← m.jrow d
      subtreeNv j t (nv + jd.nv)
    else some none

/-- the checks of the rows of a joint, `algorithm/check-data.hxx:128-149` -/
def checkRow (T : Tables) (j : ℕ) (jj : JRow) : Option Bool := do
  let p ← rd m.parents j
  let jp ← m.jrow p
  let P ← rd T.parentsRow jj.ivx
  let mp ← rd T.mimicParentsRow jj.ivx
  let np ← rd T.nonMimicParentsRow jj.ivx
  if jj.ivx = 0 then some (P == -1 && mp == -1 && np == -1)
  else some (jp.ivx + jp.nvx - 1 == P && (if jp.mimic then P == mp else P == np))

/-- one turn of the loop of `checkData` on the joints, `algorithm/check-data.hxx:102-150` -/
def checkTurn (T : Tables) (j : ℕ) : Option Bool := do
  let c ← rd T.lastChild j
  let jj ← m.jrow j
  let s ← rd T.nvSubtree j
  chk (some (c < m.njoints)) do
    let nv ← if jj.mimic then some (some 0) else m.subtreeNv j (List.range' (j + 1) (c.toNat - j)) jj.nv
    match nv with
    | none => some false
    | some nv =>
      chk (some (nv == s)) <|
      chk (chkAll (fun d => do let p ← rd m.parents d; some (decide (p < j ∨ (p : ℤ) > c)))
        (List.range' (c.toNat + 1) (m.njoints - (c.toNat + 1)))) <|
      chk ((rd T.nvSubtreeRow jj.ivx).map (fun x => s == x)) <|
      m.checkRow T j jj

/-- the checks of `mimic_subtree_joint`, `algorithm/check-data.hxx:152-170`: only the joint after the first is looked at -/
def checkMimic (T : Tables) (k : ℕ) : Option Bool := do
  let id ← rd m.mimicking k
  let sub ← rd m.subtrees id
  let x := match sub with
    | _ :: d :: _ => if m.nvs.getD d 0 != 0 then d else 0
    | _ => 0
  some (x == (← rd T.mimicSubtree k))

/-- `checkData(model, data)`, `algorithm/check-data.hxx:14-174`, on the tables -/
def checkData (T : Tables) : Option Bool :=
  chk (some (m.checkSizes T)) <|
  chk (chkAll m.checkJoint (List.range' 1 (m.njoints - 1))) <|
  chk (chkAll (m.checkTurn T) (List.range' 1 (m.njoints - 1))) <|
  chkAll (m.checkMimic T) (List.range m.mimicking.length)

end Model
end Pin
