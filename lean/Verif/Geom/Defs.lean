import Mathlib.Data.List.Basic
import Verif.Model.Construction

/-!
# `GeometryModel` and `GeometryData`

Function-by-function model of `multibody/geometry.hpp`, `multibody/geometry.hxx` and of
`algorithm/geometry.hxx`. Conventions as in `Model/Construction`: `Res` is the outcome of a call; vectors are lists;
indices are `ℕ` (no overflow); `assert`s (Eigen's bound checks included) are compiled out, so that an access of the
matrix `collisionPairMapping` outside its size is `ub`. Shapes, meshes and the collision library are not modelled.
-/

namespace Pin

/-- `GeometryObject`, `multibody/geometry-object.hpp`: the fields used by the registry. -/
structure GObj where
  name : String
  parentFrame : ℕ
  parentJoint : ℕ
  disableCollision : Bool := false
deriving DecidableEq

/-- `CollisionPair`, `multibody/geometry.hpp:21-42`: a pair of indices. -/
abbrev CPair := ℕ × ℕ

/-- the constructor `CollisionPair(co1, co2)`, `geometry.hxx:38-42`: throws (`none`) on equal indices -/
def CPair.mk? (a b : ℕ) : Option CPair := if a ≠ b then some (a, b) else none

/-- `CollisionPair::operator==`, `geometry.hxx:44-48` -/
def CPair.same (p r : CPair) : Bool := (p.1 == r.1 && p.2 == r.2) || (p.1 == r.2 && p.2 == r.1)

/-- `GeometryModel`, `multibody/geometry.hpp:54-229`; `map` is the matrix `collisionPairMapping`, of size
`dim × dim`. -/
structure GeomModel where
  ngeoms : ℕ
  objects : List GObj
  pairs : List CPair
  dim : ℕ
  map : ℕ → ℕ → ℤ

namespace GeomModel

/-- default constructor, `geometry.hpp:76-81` -/
def empty : GeomModel := ⟨0, [], [], 0, fun _ _ => 0⟩

/-- `conservativeResize(n, n)` then `col(n-1).fill(-1)`, `row(n-1).fill(-1)`, `geometry.hxx:181-183, 194-196`: the entries kept
are those of the common block, the others are unspecified (`junk`) before the fill. -/
def growMap (junk : ℤ) (dim : ℕ) (map : ℕ → ℕ → ℤ) (n : ℕ) : ℕ → ℕ → ℤ := fun i j =>
  if i = n - 1 ∨ j = n - 1 then -1 else if i < dim ∧ j < dim then map i j else junk

/-- `addGeometryObject(object)`, `geometry.hxx:189-200` -/
def addGeometryObject (junk : ℤ) (g : GeomModel) (o : GObj) : Res GeomModel ℕ :=
  let idx := g.ngeoms
  .ok { g with
    ngeoms := g.ngeoms + 1
    objects := g.objects ++ [o]
    dim := idx + 1
    map := growMap junk g.dim g.map (idx + 1) } idx

/-- `addGeometryObject(object, model)`, `geometry.hxx:168-187`; `frames` lists the parent joints of the frames of the
model. `model.frames[object.parentFrame]` is read without a bound check. -/
def addGeometryObjectM (junk : ℤ) (frames : List ℕ) (g : GeomModel) (o : GObj) : Res GeomModel ℕ :=
  match frames[o.parentFrame]? with
  | none => .ub
  | some j => if j ≠ o.parentJoint then .throw g else addGeometryObject junk g { o with parentJoint := j }

/-- `existCollisionPair`, `geometry.hxx:406-410`; `none` is an access outside the matrix -/
def existCollisionPair (g : GeomModel) (p : CPair) : Option Bool :=
  if p.1 < g.dim ∧ p.2 < g.dim then some (g.map p.1 p.2 != -1) else none

/-- `findCollisionPair`, `geometry.hxx:412-419` -/
def findCollisionPair (g : GeomModel) (p : CPair) : Option ℕ :=
  if p.1 < g.dim ∧ p.2 < g.dim then
    some (if g.map p.1 p.2 = -1 then g.pairs.length else (g.map p.1 p.2).toNat)
  else none

/-- `m(i, j) = x` -/
def setEntry (m : ℕ → ℕ → ℤ) (i j : ℕ) (x : ℤ) : ℕ → ℕ → ℤ :=
  fun a b => if a = i ∧ b = j then x else m a b

/-- `addCollisionPair`, `geometry.hxx:306-325` -/
def addCollisionPair (g : GeomModel) (p : CPair) : Res GeomModel Unit :=
  if ¬ p.1 < g.ngeoms then .throw g
  else if ¬ p.2 < g.ngeoms then .throw g
  else match g.existCollisionPair p with
    | none => .ub
    | some true => .ok g ()
    | some false =>
      let pairs := g.pairs ++ [p]
      let map := setEntry g.map p.2 p.1 ((pairs.length - 1 : ℕ) : ℤ)
      let map := setEntry map p.1 p.2 (map p.2 p.1)
      .ok { g with pairs := pairs, map := map } ()

/-- the order of the double loops `for (i = 0; i < n; ++i) for (j = i + 1; j < n; ++j)` -/
def upperPairs (n : ℕ) : List CPair :=
  (List.range n).flatMap fun i => (List.range' (i + 1) (n - (i + 1))).map fun j => (i, j)

/-- `removeAllCollisionPairs`, `geometry.hxx:400-404` -/
def removeAllCollisionPairs (g : GeomModel) : GeomModel := { g with pairs := [], map := fun _ _ => -1 }

/-- the calls of `addCollisionPair` in a loop; stops at the first exception -/
def addPairs (g : GeomModel) : List CPair → Res GeomModel Unit
  | [] => .ok g ()
  | p :: l => match CPair.mk? p.1 p.2 with
    | none => .throw g
    | some p => match g.addCollisionPair p with
      | .ok g _ => addPairs g l
      | .throw g => .throw g
      | .ub => .ub

/-- `setCollisionPairs(map, upper)`, `geometry.hxx:327-352`; the input is a `rows × cols` matrix -/
def setCollisionPairs (g : GeomModel) (rows cols : ℕ) (m : ℕ → ℕ → Bool) (upper : Bool) : Res GeomModel Unit :=
  if rows ≠ g.ngeoms then .throw g
  else if cols ≠ g.ngeoms then .throw g
  else addPairs g.removeAllCollisionPairs
    ((upperPairs g.ngeoms).filter fun p => if upper then m p.1 p.2 else m p.2 p.1)

/-- `addAllCollisionPairs`, `geometry.hxx:354-367`; `geometryObjects[i]` is inside the vector (`ngeoms` is its size) -/
def addAllCollisionPairs (g : GeomModel) : Res GeomModel Unit :=
  addPairs g.removeAllCollisionPairs
    ((upperPairs g.ngeoms).filter fun p =>
      (g.objects[p.1]?.map (·.parentJoint)) != (g.objects[p.2]?.map (·.parentJoint)))

/-- the body of the loop of `removeCollisionPair`, `geometry.hxx:390-394` -/
def shiftEntry (index : ℤ) (m : ℕ → ℕ → ℤ) (p : CPair) : ℕ → ℕ → ℤ :=
  if m p.1 p.2 > index then
    let m := setEntry m p.1 p.2 (m p.1 p.2 - 1)
    setEntry m p.2 p.1 (m p.1 p.2)
  else m

/-- `removeCollisionPair`, `geometry.hxx:369-398` -/
def removeCollisionPair (g : GeomModel) (p : CPair) : Res GeomModel Unit :=
  if ¬ p.1 < g.ngeoms then .throw g
  else if ¬ p.2 < g.ngeoms then .throw g
  else match g.findCollisionPair p with
    | none => .ub
    | some index =>
      if index ≠ g.pairs.length then
        if index < g.pairs.length then
          let map := setEntry g.map p.2 p.1 (-1)
          let map := setEntry map p.1 p.2 (-1)
          .ok { g with
            pairs := g.pairs.eraseIdx index
            map := (upperPairs g.dim).foldl (shiftEntry index) map } ()
        else .ub -- `collisionPairs.begin() + index` is past the end
      else .ok g ()

/-- the loop of `removeGeometryObject` on `collisionPairs`, `geometry.hxx:217-233`: the pairs before the iterator, and the
pairs from the iterator on. Erasing the first element of the vector leaves the iterator at `begin()`, and `itCol--` is then
undefined: the flag records it, the list is what an implementation with plain pointers computes. -/
def removePairsLoop (i : ℕ) : (done todo : List CPair) → Bool × List CPair
  | done, [] => (false, done)
  | done, p :: l =>
    if p.1 = i ∨ p.2 = i then
      let r := removePairsLoop i done l
      (done.isEmpty || r.1, r.2)
    else
      removePairsLoop i (done ++ [(if p.1 > i then p.1 - 1 else p.1, if p.2 > i then p.2 - 1 else p.2)]) l

/-- `removeGeometryObject(name)`, `geometry.hxx:202-236`. `collisionPairMapping` is left as it is. -/
def removeGeometryObject (g : GeomModel) (name : String) : Res GeomModel Unit :=
  let i := g.objects.findIdx (·.name == name)
  if i = g.objects.length then .throw g
  else
    let r := removePairsLoop i [] g.pairs
    if r.1 then .ub
    else .ok { g with pairs := r.2, objects := g.objects.eraseIdx i, ngeoms := g.ngeoms - 1 } ()

/-- `getGeometryId`, `geometry.hxx:238-247` -/
def getGeometryId (g : GeomModel) (name : String) : ℕ := g.objects.findIdx (·.name == name)

/-- `existGeometryName`, `geometry.hxx:249-258` -/
def existGeometryName (g : GeomModel) (name : String) : Bool := g.objects.any (·.name == name)

/-- `appendGeometryModel`, `algorithm/geometry.hxx:56-89`. `collisionPairMapping` of the first model is left as it is.
(The pairs of the second model are assumed to hold two different indices; otherwise the constructor of `CollisionPair`
throws in the loop.) -/
def appendGeometryModel (g h : GeomModel) : GeomModel :=
  let n1 := g.objects.length
  let n2 := h.objects.length
  let objects := g.objects ++ h.objects
  { g with
    objects := objects
    ngeoms := g.ngeoms + n2
    pairs := g.pairs ++ h.pairs.map (fun p => (p.1 + n1, p.2 + n1)) ++
      (List.range n1).flatMap fun i => ((List.range' n1 n2).filter fun j =>
        (objects[i]?.map (·.parentJoint)) != (objects[j]?.map (·.parentJoint))).map fun j => (i, j) }

end GeomModel

/-- `GeometryData`, `multibody/geometry.hpp:241-481`: the activation flags, the security margins and the distance upper
bounds of the collision requests (scalars `K`), the maps by joint. -/
structure GeomData (K : Type*) where
  active : List Bool
  margin : List K
  upperBound : List K
  inner : ℕ → List ℕ
  outer : ℕ → List ℕ

namespace GeomData
variable {K : Type*}

/-- `fillInnerOuterObjectMaps`, `geometry.hxx:260-272`: a `std::map` of lists, the missing keys being empty lists;
`geometryObjects[pair.first]` outside the vector is not modelled (joint 0) -/
def fillInnerOuterObjectMaps (g : GeomModel) (d : GeomData K) : GeomData K :=
  { d with
    inner := (List.range g.objects.length).foldl (fun f gid =>
      let j := (g.objects[gid]?.map (·.parentJoint)).getD 0
      fun k => if k = j then f k ++ [gid] else f k) (fun _ => [])
    outer := g.pairs.foldl (fun f p =>
      let j := (g.objects[p.1]?.map (·.parentJoint)).getD 0
      fun k => if k = j then f k ++ [p.2] else f k) (fun _ => []) }

/-- `GeometryData(geom_model)`, `geometry.hxx:82-122`; `m0`, `u0` are the default margins of the library -/
def ofModel (m0 u0 : K) (g : GeomModel) : GeomData K :=
  fillInnerOuterObjectMaps g
    ⟨List.replicate g.pairs.length true, List.replicate g.pairs.length m0, List.replicate g.pairs.length u0,
      fun _ => [], fun _ => []⟩

/-- `activateCollisionPair`, `geometry.hxx:421-428` -/
def activateCollisionPair (d : GeomData K) (k : ℕ) : Res (GeomData K) Unit :=
  if k < d.active.length then .ok { d with active := d.active.set k true } () else .throw d

/-- `deactivateCollisionPair`, `geometry.hxx:525-532` -/
def deactivateCollisionPair (d : GeomData K) (k : ℕ) : Res (GeomData K) Unit :=
  if k < d.active.length then .ok { d with active := d.active.set k false } () else .throw d

/-- `activateAllCollisionPairs`, `geometry.hxx:430-433` -/
def activateAllCollisionPairs (d : GeomData K) : GeomData K :=
  { d with active := List.replicate d.active.length true }

/-- `deactivateAllCollisionPairs`, `geometry.hxx:534-537` -/
def deactivateAllCollisionPairs (d : GeomData K) : GeomData K :=
  { d with active := List.replicate d.active.length false }

/-- the indices used to read an upper or lower triangular map, `geometry.hxx:451-461, 506-516` -/
def triIndex (upper : Bool) (p : CPair) : ℕ × ℕ :=
  if upper then (min p.1 p.2, max p.1 p.2) else (max p.1 p.2, min p.1 p.2)

/-- the loop `for k: if cond(pairs[k]) l[k] = f(pairs[k])` -/
def setLoop {α : Type*} (f : CPair → Option α) : (k : ℕ) → List CPair → List α → List α
  | _, [], l => l
  | k, p :: ps, l => setLoop f (k + 1) ps (match f p with | some x => l.set k x | none => l)

/-- `setActiveCollisionPairs`, `geometry.hxx:435-465` -/
def setActiveCollisionPairs (g : GeomModel) (d : GeomData K) (rows cols : ℕ) (m : ℕ → ℕ → Bool) (upper : Bool) :
    Res (GeomData K) Unit :=
  if rows ≠ g.ngeoms then .throw d
  else if cols ≠ g.ngeoms then .throw d
  else if g.pairs.length ≠ d.active.length then .throw d
  else .ok { d with
    active := setLoop (fun p => some (m (triIndex upper p).1 (triIndex upper p).2)) 0 g.pairs d.active } ()

/-- `setGeometryCollisionStatus`, `geometry.hxx:467-484` -/
def setGeometryCollisionStatus (g : GeomModel) (d : GeomData K) (geom : ℕ) (enable : Bool) : Res (GeomData K) Unit :=
  if ¬ geom < g.ngeoms then .throw d
  else if g.pairs.length ≠ d.active.length then .throw d
  else .ok { d with
    active := setLoop (fun p => if p.1 = geom ∨ p.2 = geom then some enable else none) 0 g.pairs d.active } ()

/-- `setSecurityMargins`, `geometry.hxx:487-522` -/
def setSecurityMargins (g : GeomModel) (d : GeomData K) (rows cols : ℕ) (m : ℕ → ℕ → K) (upper sync : Bool) :
    Res (GeomData K) Unit :=
  if rows ≠ g.ngeoms then .throw d
  else if cols ≠ g.ngeoms then .throw d
  else if g.pairs.length ≠ d.margin.length then .throw d
  else
    let f : CPair → Option K := fun p => some (m (triIndex upper p).1 (triIndex upper p).2)
    .ok { d with
      margin := setLoop f 0 g.pairs d.margin
      upperBound := if sync then setLoop f 0 g.pairs d.upperBound else d.upperBound } ()

end GeomData
end Pin
