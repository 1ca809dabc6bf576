import Verif.Par.Defs
import Mathlib.Analysis.SpecialFunctions.Pow.NNReal
import Mathlib.Data.Real.Sqrt
import Mathlib.Order.WithBot

/-!
# Distance queries and radii of the bodies

Collision queries and the placements of the geometries are in `Verif/Par/Defs.lean`.
-/

namespace Pin
variable {K : Type*}

/-- what `computeDistances` writes: `distanceResults[k].min_distance`, and its two local variables; `⊤` is the infinity
`min_dist` starts from -/
structure DState (K : Type*) where
  min_index : ℕ
  min_dist : WithTop K
  results : ℕ → K

/-- the loop of `computeDistances(geom_model, geom_data)`, `collision/distance.hxx:84-101`: `enabled k` is the test
`activeCollisionPairs[k] && !(…disableCollision || …)`, `dist k` what the collision library answers for pair `k` (a
finite number: NaN and infinities are not modelled, nor the exceptions of the library) -/
def cdLoop [LinearOrder K] (enabled : ℕ → Bool) (dist : ℕ → K) : List ℕ → DState K → DState K
  | [], c => c
  | k :: l, c =>
    if enabled k then
      let c := { c with results := upd c.results k (dist k) }
      if (c.results k : WithTop K) < c.min_dist then
        cdLoop enabled dist l { c with min_index := k, min_dist := (c.results k : WithTop K) }
      else cdLoop enabled dist l c
    else cdLoop enabled dist l c

/-- `computeDistances(geom_model, geom_data)`, `collision/distance.hxx:79-104`, over `n` pairs: the state and the
number returned, `min_index` -/
def computeDistances [LinearOrder K] (enabled : ℕ → Bool) (dist : ℕ → K) (n : ℕ) (results : ℕ → K) : DState K :=
  cdLoop enabled dist (List.range n) ⟨n, ⊤, results⟩

/-- the answer of the collision library for pair `k`, `collision/distance.hxx:44-77`: `lib k` is the functor of this
pair, called with the placements of its two objects -/
def pairDist [Zero K] (lib : ℕ → SE3 K → SE3 K → K) (g : GeomModel) (oMg : ℕ → SE3 K) (k : ℕ) : K :=
  match g.pairs[k]? with
  | none => 0
  | some p => lib k (oMg p.1) (oMg p.2)

/-- `computeDistances(model, data, geom_model, geom_data, q)`, `collision/distance.hxx:27-42`: the placements of the
objects and the result of the loop -/
def computeDistancesQ [CommRing K] [LinearOrder K] (s : Sys K) (d : Data K) (g : GeomModel) (placement : ℕ → SE3 K)
    (lib : ℕ → SE3 K → SE3 K → K) (active : ℕ → Bool) (oMg : ℕ → SE3 K) (results : ℕ → K) (q : ℕ → K) :
    (ℕ → SE3 K) × DState K :=
  let d := forwardKinematics s d q
  let oMg := updateGeometryPlacements g placement d.oMi oMg
  (oMg, computeDistances (pairEnabled g active) (pairDist lib g oMg) g.pairs.length results)

/-! ## Radii -/

/-- what `computeBodyRadius` reads of a geometry object: the joint it is attached to, its placement, the two extreme
corners of the box `aabb_local` the collision library computes around its shape -/
structure BoxObj where
  parentJoint : ℕ
  placement : SE3 ℝ
  lo : V3 ℝ
  hi : V3 ℝ

/-- the body of the loop of `computeBodyRadius`, `collision/collision.hxx:148-181`; a joint out of range is undefined
behaviour (the `assert` of line 158 is off in release builds) -/
noncomputable def radiusStep (radius : List ℝ) (o : BoxObj) : Option (List ℝ) :=
  let i := o.parentJoint
  let f := fun (x y z : ℝ) => (o.placement.actP ⟨x, y, z⟩).sqNorm
  match radius[i]? with
  | none => none
  | some r =>
    let radius2 := r * r
    let radius2 := max (f o.lo.x o.lo.y o.lo.z) radius2
    let radius2 := max (f o.lo.x o.lo.y o.hi.z) radius2
    let radius2 := max (f o.lo.x o.hi.y o.lo.z) radius2
    let radius2 := max (f o.lo.x o.hi.y o.hi.z) radius2
    let radius2 := max (f o.hi.x o.lo.y o.lo.z) radius2
    let radius2 := max (f o.hi.x o.lo.y o.hi.z) radius2
    let radius2 := max (f o.hi.x o.hi.y o.lo.z) radius2
    let radius2 := max (f o.hi.x o.hi.y o.hi.z) radius2
    some (radius.set i (Real.sqrt radius2))

/-- `computeBodyRadius`, `collision/collision.hxx:141-184`, for `njoints` joints: `resize` keeps what the vector
held -/
noncomputable def computeBodyRadius (njoints : ℕ) (objs : List BoxObj) (radius : List ℝ) : Option (List ℝ) :=
  objs.foldlM radiusStep (Pool.resizeVec 0 radius njoints)

end Pin
