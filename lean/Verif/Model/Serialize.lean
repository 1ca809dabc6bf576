import Verif.Model.Construction
import Mathlib.Data.String.Basic

/-!
# Saving and loading models and geometry models

Function-by-function model of `include/pinocchio/serialization/`: what `saveToText`, `saveToString`, `saveToXML`,
`saveToBinary` write for a `Model` and a `GeometryModel`, and what the `loadFrom…` functions make of it.

Simplifications:
* an archive is the sequence of the primitive values written (numbers, strings, Booleans): the characters or bytes that
  encode one value, Boost's header and class-version records and XML tags are not modelled. Boost.Serialization's
  containers are modelled (`vector`: the count, then the elements; `map`: the count, then the pairs; `variant`: the index
  of the type held, then its value);
* a value read as the wrong kind of token, or missing, throws (`none`); `FrameTpl` has class version 1 in every archive
  written by this code (`serialization/frame.hpp:28-35`), which is the only version modelled;
* a scalar is finite, infinite or NaN; `operator==` on scalars is equality of `Flt` (two NaN are not told apart);
* `Data`, the shapes of the collision library and `StaticBuffer` are not modelled.
-/

namespace Pin

/-- a floating-point number: finite, infinite or NaN -/
inductive Flt (K : Type) where
  | fin (x : K)
  | inf (neg : Bool)
  | nan
deriving DecidableEq

/-- a primitive value of an archive -/
inductive Tok (K : Type) where
  | nat (n : ℕ)
  | int (n : ℤ)
  | num (x : Flt K)
  | str (s : String)
  | bool (b : Bool)
deriving DecidableEq

/-- the kinds of archives of `serialization/archive.hpp` -/
inductive Fmt where
  | text
  | string
  | xml
  | binary
deriving DecidableEq

/-- Can the reader parse this scalar? `loadFromText` and `loadFromXML` install the facet that reads `inf` and `nan`
(`archive.hpp:60-62`, `:171-173`), binary archives hold the raw bytes; `loadFromStringStream`
(`archive.hpp:107-111`, hence `loadFromString`) uses the default locale, whose number parser stops at the letter and
fails, upon which the archive throws. -/
def Fmt.reads {K : Type} : Fmt → Flt K → Bool
  | .string, .fin _ => true
  | .string, _ => false
  | _, _ => true

/-- a reader: consumes tokens, may throw -/
abbrev Rd (K : Type) := StateT (List (Tok K)) Option

/-- what is written for a value, and how it is read back -/
class Arch (K : Type) (α : Type) where
  save : α → List (Tok K)
  load : Fmt → Rd K α

section prim
variable {K : Type}
open Arch

/-- `size_t`, `JointIndex`, enumerations -/
instance : Arch K ℕ where
  save n := [.nat n]
  load _ := fun s => match s with
    | .nat n :: r => some (n, r)
    | _ => none

/-- `int` -/
instance : Arch K ℤ where
  save n := [.int n]
  load _ := fun s => match s with
    | .int n :: r => some (n, r)
    | _ => none

/-- a scalar: see `Fmt.reads` -/
instance : Arch K (Flt K) where
  save x := [.num x]
  load f := fun s => match s with
    | .num x :: r => if f.reads x then some (x, r) else none
    | _ => none

/-- `std::string` -/
instance : Arch K String where
  save x := [.str x]
  load _ := fun s => match s with
    | .str x :: r => some (x, r)
    | _ => none

/-- `bool` -/
instance : Arch K Bool where
  save x := [.bool x]
  load _ := fun s => match s with
    | .bool x :: r => some (x, r)
    | _ => none

/-- `n` values in a row -/
def loadN {α : Type} (ld : Rd K α) : ℕ → Rd K (List α)
  | 0 => pure []
  | n + 1 => do
    let x ← ld
    let xs ← loadN ld n
    pure (x :: xs)

/-- `std::vector<T>` for a `T` whose `load` overwrites everything (Boost: count, then the elements), and a dynamic Eigen
vector (`serialization/eigen.hpp:134-171`: rows, then the data) -/
instance {α : Type} [Arch K α] : Arch K (List α) where
  save l := .nat l.length :: l.flatMap save
  load f := do
    let n : ℕ ← load f
    loadN (load f) n

/-- `make_array(v.data(), 3)`, fixed-size Eigen vectors -/
instance : Arch K (V3 (Flt K)) where
  save v := save v.x ++ save v.y ++ save v.z
  load f := do
    let x ← load f
    let y ← load f
    let z ← load f
    pure ⟨x, y, z⟩

/-- `Matrix3`, nine scalars in column-major order -/
instance : Arch K (M3 (Flt K)) where
  save m := save m.m00 ++ save m.m10 ++ save m.m20 ++ save m.m01 ++ save m.m11 ++ save m.m21
    ++ save m.m02 ++ save m.m12 ++ save m.m22
  load f := do
    let m00 ← load f
    let m10 ← load f
    let m20 ← load f
    let m01 ← load f
    let m11 ← load f
    let m21 ← load f
    let m02 ← load f
    let m12 ← load f
    let m22 ← load f
    pure ⟨m00, m01, m02, m10, m11, m12, m20, m21, m22⟩

/-- `serialization/se3.hpp:18-36`: translation, then rotation -/
instance : Arch K (SE3 (Flt K)) where
  save M := save M.trans ++ save M.rot
  load f := do
    let p ← load f
    let R ← load f
    pure ⟨R, p⟩

/-- `serialization/symmetric3.hpp:18-36` -/
instance : Arch K (Sym3 (Flt K)) where
  save S := save S.xx ++ save S.xy ++ save S.yy ++ save S.xz ++ save S.yz ++ save S.zz
  load f := do
    let a ← load f
    let b ← load f
    let c ← load f
    let d ← load f
    let e ← load f
    let g ← load f
    pure ⟨a, b, c, d, e, g⟩

/-- `serialization/inertia.hpp:20-40` -/
instance : Arch K (Inertia (Flt K)) where
  save Y := save Y.mass ++ save Y.lever ++ save Y.rotI
  load f := do
    let m ← load f
    let c ← load f
    let i ← load f
    pure ⟨m, c, i⟩

/-- `serialization/motion.hpp:18-36` -/
instance : Arch K (Motion (Flt K)) where
  save v := save v.lin ++ save v.ang
  load f := do
    let l ← load f
    let a ← load f
    pure ⟨l, a⟩

/-- `serialization/frame.hpp:14-26` (class version 1) -/
instance : Arch K (Frame (Flt K)) where
  save g := save g.name ++ save g.parentJoint ++ save g.parentFrame ++ save g.placement ++ save g.type ++ save g.inertia
  load f := do
    let name ← load f
    let pj ← load f
    let pf ← load f
    let pl ← load f
    let ty ← load f
    let Y ← load f
    pure ⟨name, pj, pf, pl, ty, Y⟩

/-- `std::pair` -/
instance {α β : Type} [Arch K α] [Arch K β] : Arch K (α × β) where
  save p := save p.1 ++ save p.2
  load f := do
    let a ← load f
    let b ← load f
    pure (a, b)

end prim

/-! ## `std::map<std::string, VectorXs>` -/

/-- `std::map::insert`: keeps the entry already there, if any -/
def mapInsert {β : Type} (k : String) (v : β) : List (String × β) → List (String × β)
  | [] => [(k, v)]
  | e :: l => if k < e.1 then (k, v) :: e :: l else if e.1 < k then e :: mapInsert k v l else e :: l

/-- loading a map: `clear()`, then as many `insert`s as there are pairs (Boost) -/
def loadMap {K β : Type} [Arch K β] (f : Fmt) : Rd K (List (String × β)) := do
  let l : List (String × β) ← Arch.load f
  pure (l.foldl (fun m e => mapInsert e.1 e.2 m) [])

/-! ## joints -/

/-- the indexes of a joint, `joint/joint-model-base.hpp:624-628` -/
structure JIdx where
  id : ℕ
  q : ℤ
  v : ℤ
  vx : ℤ
deriving DecidableEq

/-- `std::numeric_limits<JointIndex>::max()` -/
def maxIndex : ℕ := 2 ^ 64 - 1

/-- the indexes of a default-constructed joint, `joint/joint-model-base.hpp:593-599` -/
def JIdx.default : JIdx := ⟨maxIndex, -1, -1, -1⟩

/-- the joint types without parameters, `joint/joint-collection.hpp:85-111` -/
inductive PlainKind where
  | rx | ry | rz | freeFlyer | planar | spherical | sphericalZYX | px | py | pz | translation | rubx | ruby | rubz
deriving DecidableEq

/-- the joint types with one axis -/
inductive AxisKind where
  | revolute | prismatic | revoluteUnbounded
deriving DecidableEq

/-- the tables of a composite joint, `joint/joint-composite.hpp:675-695` -/
structure CompTabs where
  nq : ℤ
  nv : ℤ
  nvx : ℤ
  idx_q : List ℤ
  nqs : List ℤ
  idx_v : List ℤ
  nvs : List ℤ
  idx_vx : List ℤ
  nvxs : List ℤ
  njoints : ℤ
deriving DecidableEq

/-- A joint: the content of `JointModelTpl`, the variant of `joint/joint-collection.hpp:85-111`. For a mimic joint
(`joint/joint-mimic.hpp:590-786`), `nqx` and `nvx` are `m_nqExtended` and `m_nvExtended`; `none` is an indeterminate
value: the default constructor (`joint-mimic.hpp:586-588`) leaves these two `int`s uninitialised. -/
inductive SJoint (K : Type) where
  | plain (k : PlainKind) (ix : JIdx)
  | axis (k : AxisKind) (ix : JIdx) (a : V3 (Flt K))
  | helical (ax : Fin 3) (ix : JIdx) (pitch : Flt K)
  | helicalUnaligned (ix : JIdx) (a : V3 (Flt K)) (pitch : Flt K)
  | universal (ix : JIdx) (a1 a2 : V3 (Flt K))
  | composite (ix : JIdx) (t : CompTabs) (joints : List (SJoint K)) (placements : List (SE3 (Flt K)))
  | mimic (ix : JIdx) (jm : SJoint K) (scaling offset : Flt K) (nqx nvx : Option ℤ)

namespace SJoint
variable {K : Type}
open Arch

/-- `id()`, `idx_q()`, `idx_v()`, `idx_vExtended()` of the joint held -/
def idx : SJoint K → JIdx
  | .plain _ ix => ix
  | .axis _ ix _ => ix
  | .helical _ ix _ => ix
  | .helicalUnaligned ix _ _ => ix
  | .universal ix _ _ => ix
  | .composite ix _ _ _ => ix
  | .mimic ix _ _ _ _ _ => ix

/-- `JointModelTpl()`: the first type of the variant, default-constructed -/
def default : SJoint K := .plain .rx .default

/-- `boost::variant::which()`, for the list of `joint/joint-collection.hpp:85-111` -/
def which : SJoint K → ℕ
  | .plain k _ => match k with
    | .rx => 0 | .ry => 1 | .rz => 2 | .freeFlyer => 3 | .planar => 4 | .spherical => 6 | .sphericalZYX => 7
    | .px => 8 | .py => 9 | .pz => 10 | .translation => 12 | .rubx => 13 | .ruby => 14 | .rubz => 15
  | .axis k _ _ => match k with
    | .revolute => 5 | .prismatic => 11 | .revoluteUnbounded => 16
  | .helical ax _ _ => 17 + ax.val
  | .helicalUnaligned _ _ _ => 20
  | .universal _ _ _ => 21
  | .composite _ _ _ _ => 22
  | .mimic _ _ _ _ _ _ => 23

/-- `save` of `JointModelBase`, `serialization/joints-model.hpp:53-66` -/
instance : Arch K JIdx where
  save ix := save ix.id ++ save ix.q ++ save ix.v ++ save ix.vx
  load f := do
    let i ← load f
    let q ← load f
    let v ← load f
    let vx ← load f
    pure ⟨i, q, v, vx⟩

/-- `Serialize<JointModelCompositeTpl>::run`, `serialization/joints-model.hpp:14-28` (up to `njoints`) -/
instance : Arch K CompTabs where
  save t := save t.nq ++ save t.nv ++ save t.nvx ++ save t.idx_q ++ save t.nqs ++ save t.idx_v ++ save t.nvs
    ++ save t.idx_vx ++ save t.nvxs ++ save t.njoints
  load f := do
    let nq ← load f
    let nv ← load f
    let nvx ← load f
    let idx_q ← load f
    let nqs ← load f
    let idx_v ← load f
    let nvs ← load f
    let idx_vx ← load f
    let nvxs ← load f
    let n ← load f
    pure ⟨nq, nv, nvx, idx_q, nqs, idx_v, nvs, idx_vx, nvxs, n⟩

mutual
/-- `serialize(ar, JointModelTpl)` when saving, `serialization/joints-model.hpp:282-293`: the indexes, then the variant
(index of the type and value); the values by type, `joints-model.hpp:114-280`, composite joints `:10-33` and `:264-280`,
mimic joints `:295-312` -/
def saveJ : SJoint K → List (Tok K)
  | .plain k ix => save ix ++ save (which (.plain k ix : SJoint K)) ++ save ix
  | .axis k ix a => save ix ++ save (which (.axis k ix a)) ++ (save ix ++ save a)
  | .helical ax ix h => save ix ++ save (which (.helical ax ix h)) ++ (save ix ++ save h)
  | .helicalUnaligned ix a h => save ix ++ save (which (.helicalUnaligned ix a h)) ++ (save ix ++ save a ++ save h)
  | .universal ix a b => save ix ++ save (which (.universal ix a b)) ++ (save ix ++ save a ++ save b)
  | .composite ix t js ps => save ix ++ save (22 : ℕ) ++
      (save ix ++ save t ++ (.nat js.length :: saveJs js) ++ save ps)
  | .mimic ix jm s o _ _ => save ix ++ save (23 : ℕ) ++ (saveJ jm ++ save s ++ save o ++ save ix)
/-- the elements of a vector of joints -/
def saveJs : List (SJoint K) → List (Tok K)
  | [] => []
  | j :: js => saveJ j ++ saveJs js
end

mutual
/-- does `setIndexes` return normally? `joint/joint-model-base.hpp:211-222`; a mimic joint throws unless its own index is
larger than the index of the joint it follows (`joint/joint-mimic.hpp:645-654`); a composite joint gives its members
the ids `0, 1, …` (`joint/joint-composite.hpp:386-390`, `:644-672`) -/
def setOk : SJoint K → ℕ → Bool
  | .composite _ _ js _, _ => setOks js 0
  | .mimic _ jm _ _ _ _, i => jm.idx.id < i
  | _, _ => true
/-- members of a composite joint -/
def setOks : List (SJoint K) → ℕ → Bool
  | [], _ => true
  | j :: js, i => setOk j i && setOks js (i + 1)
end

/-- `setIndexes`, `joint/joint-model-base.hpp:211-222` and `joint/joint-mimic.hpp:645-654` (which ignores `q` and `v`).
For a composite joint the indexes of the members, which are recomputed, are not modelled: this code never uses the
result on a composite joint (a composite joint is loaded after its indexes have been set, and a mimic joint cannot
follow one, `joint/joint-basic-visitors.hxx:957-988`). -/
def setIndexes (j : SJoint K) (ix : JIdx) : Option (SJoint K) :=
  if setOk j ix.id then
    match j with
    | .plain k _ => some (.plain k ix)
    | .axis k _ a => some (.axis k ix a)
    | .helical ax _ h => some (.helical ax ix h)
    | .helicalUnaligned _ a h => some (.helicalUnaligned ix a h)
    | .universal _ a b => some (.universal ix a b)
    | .composite _ t js ps => some (.composite ix t js ps)
    | .mimic i jm s o a b => some (.mimic ⟨ix.id, i.q, i.v, ix.vx⟩ jm s o a b)
  else none

/-- `load` of the index record of a joint without members: `setIndexes` on a fresh joint cannot throw -/
def plainOf : ℕ → Option PlainKind
  | 0 => some .rx | 1 => some .ry | 2 => some .rz | 3 => some .freeFlyer | 4 => some .planar | 6 => some .spherical
  | 7 => some .sphericalZYX | 8 => some .px | 9 => some .py | 10 => some .pz | 12 => some .translation
  | 13 => some .rubx | 14 => some .ruby | 15 => some .rubz | _ => none

/-- see `plainOf` -/
def axisOf : ℕ → Option AxisKind
  | 5 => some .revolute | 11 => some .prismatic | 16 => some .revoluteUnbounded | _ => none

/-- loading the elements of a `std::vector<JointModel>` into the elements `cur` left by `resize` -/
def loadJs (ld : SJoint K → Rd K (SJoint K)) : List (SJoint K) → Rd K (List (SJoint K))
  | [] => pure []
  | c :: cs => do
    let j ← ld c
    let js ← loadJs ld cs
    pure (j :: js)

/-- `SetJointIndexes<JointModelMimicTpl>::run`, `serialization/joints-model.hpp:85-100`: `setMimicIndexes`
(`joint/joint-mimic.hpp:665-674`), then `setIndexes` -/
def loadMimicIdx (ix : JIdx) (jm : SJoint K) (s o : Flt K) (a b : Option ℤ) : Option (SJoint K) := do
  let jm' ← jm.setIndexes ⟨jm.idx.id, 0, 0, jm.idx.vx⟩
  (SJoint.mimic ⟨maxIndex, ix.q, ix.v, -1⟩ jm' s o a b).setIndexes ⟨ix.id, 0, 0, ix.vx⟩

/-- loading the value held by the variant, into a fresh object of the type with index `w`
(Boost: `T value; ar >> value; v = value`); `ld` loads a nested `JointModel`, into the given object -/
def loadHeld (ld : SJoint K → Rd K (SJoint K)) (f : Fmt) (w : ℕ) : Rd K (SJoint K) :=
  match plainOf w with
  | some k => do
    let ix ← load f
    pure (.plain k ix)
  | none => match axisOf w with
    | some k => do
      let ix ← load f
      let a ← load f
      pure (.axis k ix a)
    | none =>
      if h : 17 ≤ w ∧ w < 20 then do
        let ix ← load f
        let p ← load f
        pure (.helical ⟨w - 17, by omega⟩ ix p)
      else if w = 20 then do
        let ix ← load f
        let a ← load f
        let p ← load f
        pure (.helicalUnaligned ix a p)
      else if w = 21 then do
        let ix ← load f
        let a ← load f
        let b ← load f
        pure (.universal ix a b)
      else if w = 22 then do
        let ix ← load f
        let t ← load f
        let n : ℕ ← load f
        let js ← loadJs ld (List.replicate n default)
        let ps ← load f
        pure (.composite ix t js ps)
      else if w = 23 then do
        let jm ← ld default
        let s ← load f
        let o ← load f
        let ix ← load f
        fun r => (loadMimicIdx ix jm s o none none).map fun j => (j, r)
      else fun _ => none

/-- `serialize(ar, JointModelTpl)` when loading into the object `cur`, `serialization/joints-model.hpp:282-293`: reads the
indexes and sets them on the joint presently held, then replaces the joint by the one read. The first argument bounds
the nesting depth of joints. -/
def loadJ (f : Fmt) : ℕ → SJoint K → Rd K (SJoint K)
  | 0, _ => fun _ => none
  | n + 1, cur => do
    let ix : JIdx ← load f
    if cur.setOk ix.id then
      let w : ℕ ← load f
      loadHeld (loadJ f n) f w
    else fun _ => none

/-- `loadFrom…(jmodel, …)`: an archive of `n` values cannot nest more than `n` joints -/
def loadJoint (f : Fmt) (cur : SJoint K) : Rd K (SJoint K) := fun s => loadJ f (s.length + 1) cur s

end SJoint

/-! ## `Model` -/

/-- `ModelTpl`, `multibody/model.hpp:96-221`, all its data members -/
structure SModel (K : Type) where
  nq : ℤ
  nv : ℤ
  nvx : ℤ
  njoints : ℤ
  nbodies : ℤ
  nframes : ℤ
  inertias : List (Inertia (Flt K))
  jointPlacements : List (SE3 (Flt K))
  joints : List (SJoint K)
  idx_qs : List ℤ
  nqs : List ℤ
  idx_vs : List ℤ
  nvs : List ℤ
  idx_vxs : List ℤ
  nvxs : List ℤ
  parents : List ℕ
  children : List (List ℕ)
  mimicking : List ℕ
  mimicked : List ℕ
  names : List String
  refs : List (String × List (Flt K))
  armature : List (Flt K)
  rotorInertia : List (Flt K)
  rotorGearRatio : List (Flt K)
  friction : List (Flt K)
  damping : List (Flt K)
  effortLimit : List (Flt K)
  velocityLimit : List (Flt K)
  lowerPositionLimit : List (Flt K)
  upperPositionLimit : List (Flt K)
  frames : List (Frame (Flt K))
  supports : List (List ℕ)
  mimicSupports : List (List ℕ)
  subtrees : List (List ℕ)
  gravity : Motion (Flt K)
  name : String

namespace SModel
variable {K : Type}
open Arch

/-- `serialize(ar, ModelTpl)` when saving, `serialization/model.hpp:27-72` -/
def saveModel (m : SModel K) : List (Tok K) :=
  save m.nq ++ save m.nqs ++ save m.idx_qs ++ save m.nv ++ save m.nvs ++ save m.idx_vs ++ save m.nvx ++ save m.nvxs
  ++ save m.idx_vxs ++ save m.njoints ++ save m.nbodies ++ save m.nframes ++ save m.parents ++ save m.children
  ++ save m.names ++ save m.supports ++ save m.mimicSupports ++ save m.subtrees ++ save m.mimicking ++ save m.mimicked
  ++ save m.gravity ++ save m.name ++ save m.refs ++ save m.armature ++ save m.rotorInertia ++ save m.rotorGearRatio
  ++ save m.friction ++ save m.damping ++ save m.effortLimit ++ save m.velocityLimit ++ save m.lowerPositionLimit
  ++ save m.upperPositionLimit ++ save m.inertias ++ save m.jointPlacements
  ++ (.nat m.joints.length :: SJoint.saveJs m.joints) ++ save m.frames

/-- `v.resize(n)` on a vector of joints -/
def resizeJ (l : List (SJoint K)) (n : ℕ) : List (SJoint K) :=
  l.take n ++ List.replicate (n - l.length) .default

/-- the vector of joints of a model: the elements are loaded into those already there (Boost resizes the vector, which
keeps them) -/
def loadJoints (f : Fmt) (cur : List (SJoint K)) : Rd K (List (SJoint K)) := do
  let n : ℕ ← load f
  SJoint.loadJs (SJoint.loadJoint f) (resizeJ cur n)

/-- `serialize(ar, ModelTpl)` when loading into the model `cur`, `serialization/model.hpp:27-72` -/
def loadModel (f : Fmt) (cur : SModel K) : Rd K (SModel K) := do
  let nq ← load f
  let nqs ← load f
  let idx_qs ← load f
  let nv ← load f
  let nvs ← load f
  let idx_vs ← load f
  let nvx ← load f
  let nvxs ← load f
  let idx_vxs ← load f
  let njoints ← load f
  let nbodies ← load f
  let nframes ← load f
  let parents ← load f
  let children ← load f
  let names ← load f
  let supports ← load f
  let mimicSupports ← load f
  let subtrees ← load f
  let mimicking ← load f
  let mimicked ← load f
  let gravity ← load f
  let name ← load f
  let refs ← loadMap f
  let armature ← load f
  let rotorInertia ← load f
  let rotorGearRatio ← load f
  let friction ← load f
  let damping ← load f
  let effortLimit ← load f
  let velocityLimit ← load f
  let lowerPositionLimit ← load f
  let upperPositionLimit ← load f
  let inertias ← load f
  let jointPlacements ← load f
  let joints ← loadJoints f cur.joints
  let frames ← load f
  pure { nq, nqs, idx_qs, nv, nvs, idx_vs, nvx, nvxs, idx_vxs, njoints, nbodies, nframes, parents, children, names,
         supports, mimicSupports, subtrees, mimicking, mimicked, gravity, name, refs, armature, rotorInertia,
         rotorGearRatio, friction, damping, effortLimit, velocityLimit, lowerPositionLimit, upperPositionLimit,
         inertias, jointPlacements, joints, frames }

end SModel

/-! ## `GeometryModel` -/

/-- `GeometryPhongMaterial`, `multibody/geometry-object.hpp:41-71` -/
structure Phong (K : Type) where
  emission : List (Flt K)
  specular : List (Flt K)
  shininess : Flt K

/-- `GeometryObject`, `multibody/geometry-object.hpp:86-137`; `material = none` is `GeometryNoMaterial`; `shape` stands for
the collision geometry, which the collision library saves and loads -/
structure SGeom (K : Type) where
  name : String
  parentJoint : ℕ
  parentFrame : ℕ
  placement : SE3 (Flt K)
  shape : ℕ
  meshPath : String
  meshScale : V3 (Flt K)
  overrideMaterial : Bool
  meshColor : List (Flt K)
  material : Option (Phong K)
  meshTexturePath : String
  disableCollision : Bool

/-- `GeometryModel`, `multibody/geometry.hpp:53-228`; `mapping` lists the entries of `collisionPairMapping` -/
structure SGeomModel (K : Type) where
  ngeoms : ℕ
  objects : List (SGeom K)
  pairs : List (ℕ × ℕ)
  mapRows : ℤ
  mapCols : ℤ
  mapping : List ℤ

namespace SGeom
variable {K : Type}
open Arch

/-- `serialize(ar, ModelItem)`, `serialization/geometry.hpp:41-49`; also what `save_construct_data` (`:65-73`) writes -/
def saveBase (g : SGeom K) : List (Tok K) :=
  save g.name ++ save g.parentFrame ++ save g.parentJoint ++ save g.placement

/-- `serialize(ar, GeometryObject)`, `serialization/geometry.hpp:51-63` -/
def saveGeom (g : SGeom K) : List (Tok K) :=
  saveBase g ++ save g.shape ++ save g.meshPath ++ save g.meshScale ++ save g.overrideMaterial ++ save g.meshColor
  ++ save g.meshTexturePath ++ save g.disableCollision

/-- `serialize(ar, GeometryObject)` when loading into the object `cur`, `serialization/geometry.hpp:51-63`: the material is
not part of the archive -/
def loadGeom (f : Fmt) (cur : SGeom K) : Rd K (SGeom K) := do
  let name ← load f
  let pf ← load f
  let pj ← load f
  let pl ← load f
  let shape ← load f
  let meshPath ← load f
  let meshScale ← load f
  let om ← load f
  let color ← load f
  let tex ← load f
  let dis ← load f
  pure ⟨name, pj, pf, pl, shape, meshPath, meshScale, om, color, cur.material, tex, dis⟩

/-- the object made by `load_construct_data`, `serialization/geometry.hpp:75-84`, with the default arguments of the
constructor (`multibody/geometry-object.hpp:151-173`): no material -/
def construct (name : String) (pj pf : ℕ) (pl : SE3 (Flt K)) (one zero : Flt K) : SGeom K :=
  ⟨name, pj, pf, pl, 0, "", ⟨one, one, one⟩, false, [zero, zero, zero, one], none, "", false⟩

/-- an element of a vector of geometry objects, which have no default constructor: Boost saves the construction data, then
the element, -/
def saveItem (g : SGeom K) : List (Tok K) := saveBase g ++ saveGeom g

/-- constructs an object with the data read, and loads the element into it -/
def loadItem (one zero : Flt K) (f : Fmt) : Rd K (SGeom K) := do
  let name ← load f
  let pf ← load f
  let pj ← load f
  let pl ← load f
  loadGeom f (construct name pj pf pl one zero)

end SGeom

namespace SGeomModel
variable {K : Type}
open Arch

/-- `serialize(ar, GeometryModel)` when saving, `serialization/geometry.hpp:86-94` -/
def saveGM (g : SGeomModel K) : List (Tok K) :=
  save g.ngeoms ++ (.nat g.objects.length :: g.objects.flatMap SGeom.saveItem) ++ save g.pairs
  ++ save g.mapRows ++ save g.mapCols ++ save g.mapping

/-- `serialize(ar, GeometryModel)` when loading, `serialization/geometry.hpp:86-94`; the former content is dropped -/
def loadGM (one zero : Flt K) (f : Fmt) (_cur : SGeomModel K) : Rd K (SGeomModel K) := do
  let ngeoms ← load f
  let n : ℕ ← load f
  let objects ← loadN (SGeom.loadItem one zero f) n
  let pairs ← load f
  let r ← load f
  let c ← load f
  let mapping ← load f
  pure ⟨ngeoms, objects, pairs, r, c, mapping⟩

end SGeomModel

end Pin
