import Verif.Par.Defs
import Verif.Geom.Defs

/-!
# Broad-phase collision managers

Model of `collision/broadphase-manager.hpp`, `collision/broadphase-manager.hxx`, `collision/tree-broadphase-manager.hxx`,
`collision/broadphase-callbacks.hpp` and `collision/broadphase.hpp`. The collision library (hpp-fcl) is not modelled: it is
given by its answers, in `Fcl`. A geometry is known by its address (a number). An access out of a vector gives `none`; so
does the exception of the callback. `assert`s are compiled out.
-/

namespace Pin.Broadphase
open Pin

/-- `hpp::fcl::AABB`: an axis-aligned box -/
structure Box (K : Type*) where
  lo : V3 K
  hi : V3 K
deriving DecidableEq

/-- `hpp::fcl::AABB::expand(delta)`: the box grown by `delta` on every side -/
def Box.expand {K : Type*} [CommRing K] (b : Box K) (d : K) : Box K :=
  ⟨⟨b.lo.x - d, b.lo.y - d, b.lo.z - d⟩, ⟨b.hi.x + d, b.hi.y + d, b.hi.z + d⟩⟩

/-- the answers of the collision library: the volume and the placed bounding box of a geometry whose local bounding box has
been computed; the pairs of objects that a manager gives to the callback, if never stopped, for the registered objects and
their boxes, alone (`collide(callback)`) or with those of another manager (`collide(other, callback)`); and the narrow phase
of a pair of geometries -/
structure Fcl (K : Type*) where
  vol : ℕ → K
  box : ℕ → SE3 K → Box K
  self : List ℕ → (ℕ → Box K) → List (ℕ × ℕ)
  cross : List ℕ → (ℕ → Box K) → List ℕ → (ℕ → Box K) → List (ℕ × ℕ)
  narrow : ℕ → SE3 K → SE3 K → Bool

/-- what the manager reads in the geometry model and in the geometry data: the registry, the geometry of each object, the
activation of each pair, its `security_margin` and `break_distance`, and the placements -/
structure Env (K : Type*) where
  g : GeomModel
  geom : ℕ → ℕ
  active : ℕ → Bool
  margin : ℕ → K
  brk : ℕ → K
  oMg : ℕ → SE3 K

/-- `BroadPhaseManagerTpl`, `broadphase-manager.hpp:176-201`: `registered` is the content of the internal manager;
`objGeom` and `objBox` are the geometry and the box of `collision_objects` -/
structure Man (K : Type*) where
  selected : List ℕ
  toIdx : List (Option ℕ)
  isActive : ℕ → Bool
  inflation : ℕ → K
  objGeom : ℕ → ℕ
  objBox : ℕ → Box K
  registered : List ℕ

section
variable {K : Type*} [Field K] [LinearOrder K]

/-- `geometryObjects[i].disableCollision` -/
def Env.disabled (e : Env K) (i : ℕ) : Bool := (e.g.objects[i]?.map (·.disableCollision)).getD false

/-- the constructor and `init`, `broadphase-manager.hpp:48-88`, `broadphase-manager.hxx:192-209`, with a filter; the boxes
are those of the geometries placed at the identity. `comp` is the set of the geometries whose local bounding box has been
computed: the constructor of `CollisionObject` (`geometry-object.hpp:348-355`) computes it. -/
def construct (F : Fcl K) (e : Env K) (filter : ℕ → Bool) (comp : ℕ → Bool) : Man K × (ℕ → Bool) :=
  let selected := (List.range e.g.objects.length).filter filter
  let toIdx := (List.range selected.length).foldl (fun t k => t.set (selected.getD k 0) (some k))
    (List.replicate e.g.objects.length none)
  let isActive := fun k => !e.disabled (selected.getD k 0)
  ({ selected := selected
     toIdx := toIdx
     isActive := isActive
     inflation := fun _ => 0
     objGeom := fun k => e.geom (selected.getD k 0)
     objBox := fun k => F.box (e.geom (selected.getD k 0)) 1
     registered := (List.range selected.length).filter isActive },
   fun p => comp p || selected.any (fun i => e.geom i == p))

/-- `aabb_local.volume() <= 0`; the volume is `-∞` if the local bounding box has not been computed -/
def Fcl.degenerate (F : Fcl K) (comp : ℕ → Bool) (p : ℕ) : Bool := !comp p || decide (F.vol p ≤ 0)

/-- first pass of `update`, `broadphase-manager.hxx:21-46`: the status, the new active and the new inactive objects -/
def pass1 (F : Fcl K) (comp : ℕ → Bool) (e : Env K) (selected : List ℕ) (st : (ℕ → Bool) × List ℕ × List ℕ) (k : ℕ) :
    (ℕ → Bool) × List ℕ × List ℕ :=
  let i := selected.getD k 0
  if F.degenerate comp (e.geom i) then
    if st.1 k then (upd st.1 k false, st.2.1, st.2.2 ++ [k]) else st
  else if st.1 k != !e.disabled i then
    if e.disabled i then (upd st.1 k (!e.disabled i), st.2.1, st.2.2 ++ [k])
    else (upd st.1 k (!e.disabled i), st.2.1 ++ [k], st.2.2)
  else st

/-- the inflation of one object, `broadphase-manager.hxx:75-89` -/
def inflate (x : K) (inf : ℕ → K) : Option ℕ → ℕ → K
  | none => inf
  | some k => upd inf k (max x (inf k))

/-- second pass of `update`, `broadphase-manager.hxx:50-90` -/
def pass2 (e : Env K) (toIdx : List (Option ℕ)) (inf : ℕ → K) (pair_id : ℕ) : Option (ℕ → K) :=
  match e.g.pairs[pair_id]? with
  | none => none
  | some pair =>
    match toIdx[pair.1]?, toIdx[pair.2]? with
    | some i1, some i2 =>
      if !(i1.isSome || i2.isSome) then some inf
      else if !pairEnabled e.g e.active pair_id then some inf
      else
        let x := (e.brk pair_id + e.margin pair_id) * (1 / 2)
        some (inflate x (inflate x inf i1) i2)
    | _, _ => none

/-- third pass of `update`, `broadphase-manager.hxx:93-113`; `setCollisionGeometry(g, true)` computes the local box -/
def pass3 (F : Fcl K) (e : Env K) (m : Man K) (compute_local_aabb : Bool) (st : (ℕ → ℕ) × (ℕ → Box K) × (ℕ → Bool)) (k : ℕ) :
    (ℕ → ℕ) × (ℕ → Box K) × (ℕ → Bool) :=
  if !m.isActive k then st
  else
    let i := m.selected.getD k 0
    let comp := if e.geom i ≠ st.1 k ∧ compute_local_aabb = true then upd st.2.2 (e.geom i) true else st.2.2
    (upd st.1 k (e.geom i), upd st.2.1 k ((F.box (e.geom i) (e.oMg i)).expand (m.inflation k)), comp)

/-- `update(compute_local_aabb)`, `broadphase-manager.hxx:11-124` -/
def update (F : Fcl K) (e : Env K) (compute_local_aabb : Bool) (mc : Man K × (ℕ → Bool)) : Option (Man K × (ℕ → Bool)) :=
  let m := mc.1
  if ¬ (m.selected.all fun i => decide (i < e.g.objects.length)) then none
  else
    let p1 := (List.range m.selected.length).foldl (pass1 F mc.2 e m.selected) (m.isActive, [], [])
    match (List.range e.g.pairs.length).foldlM (pass2 e m.toIdx) (fun _ => 0) with
    | none => none
    | some inflation =>
      let m := { m with isActive := p1.1, inflation := inflation }
      let p3 := (List.range m.selected.length).foldl (pass3 F e m compute_local_aabb) (m.objGeom, m.objBox, mc.2)
      some ({ m with objGeom := p3.1, objBox := p3.2.1, registered := p1.2.2.foldl List.erase m.registered ++ p1.2.1 },
        p3.2.2)

/-- `check()`, `broadphase-manager.hxx:139-189` -/
def Man.check (m : Man K) (e : Env K) (comp : ℕ → Bool) : Bool :=
  decide (m.registered.length ≤ m.selected.length) &&
  decide (((List.range m.selected.length).filter m.isActive).length = m.registered.length) &&
  (List.range m.selected.length).all fun k =>
    if m.isActive k then
      decide (k ∈ m.registered) && comp (m.objGeom k) && decide (m.objGeom k = e.geom (m.selected.getD k 0))
    else decide (k ∉ m.registered)

/-! ## the callback -/

/-- `CollisionCallBackDefault`, `broadphase-callbacks.hpp:66-190`, and `collisionResults` -/
structure CB where
  collision : Bool
  pairIndex : ℕ
  count : ℕ
  results : ℕ → Bool

/-- `CollisionCallBackDefault::collide(o1, o2)`, `broadphase-callbacks.hpp:91-163`: `i1, i2` are the indices of the geometry
objects and `p1, p2` the geometries of the collision objects; the boolean asks the manager to stop; `none` is an exception -/
def CB.collide (F : Fcl K) (e : Env K) (stopAtFirst : Bool) (i1 p1 i2 p2 : ℕ) (c : CB) : Option (CB × Bool) :=
  if ¬ (i1 < e.g.ngeoms ∧ i2 < e.g.ngeoms) then none
  else if e.g.map i1 i2 = -1 then some (c, false)
  else
    let k := (e.g.map i1 i2).toNat
    if !pairEnabled e.g e.active k then some (c, false)
    else if p1 ≠ e.geom i1 ∨ p2 ≠ e.geom i2 then none
    else
      let res := pairCol F.narrow e.g e.oMg k
      let c := { c with count := c.count + 1, results := upd c.results k res }
      let c := if res && !c.collision then { c with collision := true, pairIndex := k } else c
      some (c, if !stopAtFirst then false else res)

/-- a manager calls the callback on the pairs it finds until it is asked to stop -/
def visit (F : Fcl K) (e : Env K) (stopAtFirst : Bool) (m1 m2 : Man K) : List (ℕ × ℕ) → CB → Option CB
  | [], c => some c
  | (a, b) :: l, c =>
    match c.collide F e stopAtFirst (m1.selected.getD a 0) (m1.objGeom a) (m2.selected.getD b 0) (m2.objGeom b) with
    | none => none
    | some (c, true) => some c
    | some (c, false) => visit F e stopAtFirst m1 m2 l c

/-- `computeCollisions(manager, stopAtFirstCollision)`, `broadphase.hpp:55-68, 30-40`, `broadphase-manager.hxx:219-223`: `idx`
and `results` are the `collisionPairIndex` and the `collisionResults` of the geometry data -/
def computeCollisions (F : Fcl K) (e : Env K) (m : Man K) (stopAtFirst : Bool) (idx : ℕ) (results : ℕ → Bool) : Option CState :=
  (visit F e stopAtFirst m m (F.self m.registered m.objBox) ⟨false, 0, 0, results⟩).map fun c =>
    ⟨c.collision, if c.collision then c.pairIndex else idx, c.results⟩

/-- `stop()`, `broadphase-callbacks.hpp:170-176` -/
def CB.stop (stopAtFirst : Bool) (c : CB) : Bool := stopAtFirst && c.collision

/-- the inner loop of `TreeBroadPhaseManagerTpl::collide(callback)`, `tree-broadphase-manager.hxx:77-86` -/
def treeInner (F : Fcl K) (e : Env K) (stopAtFirst : Bool) (outer : Man K) : List (Man K) → CB → Option CB
  | [], c => some c
  | inner :: l, c =>
    match visit F e stopAtFirst outer inner (F.cross outer.registered outer.objBox inner.registered inner.objBox) c with
    | none => none
    | some c => if c.stop stopAtFirst then some c else treeInner F e stopAtFirst outer l c

/-- the outer loop, `tree-broadphase-manager.hxx:73-91` -/
def treeOuter (F : Fcl K) (e : Env K) (stopAtFirst : Bool) : List (Man K) → CB → Option CB
  | [], c => some c
  | outer :: l, c =>
    match treeInner F e stopAtFirst outer l c with
    | none => none
    | some c => if c.stop stopAtFirst then some c else treeOuter F e stopAtFirst l c

/-- `computeCollisions` with a `TreeBroadPhaseManagerTpl`, `tree-broadphase-manager.hxx:65-97`, `broadphase.hpp:30-40` -/
def treeCollisions (F : Fcl K) (e : Env K) (ms : List (Man K)) (stopAtFirst : Bool) (idx : ℕ) (results : ℕ → Bool) :
    Option CState :=
  (treeOuter F e stopAtFirst ms ⟨false, 0, 0, results⟩).map fun c =>
    ⟨c.collision, if c.collision then c.pairIndex else idx, c.results⟩

/-- `TreeBroadPhaseManagerTpl::init`, `tree-broadphase-manager.hxx:53-63`: one manager for each joint. The copies made by
`push_back` build the same collision objects. -/
def treeConstruct (F : Fcl K) (e : Env K) (njoints : ℕ) (comp : ℕ → Bool) : List (Man K) × (ℕ → Bool) :=
  (List.range njoints).foldl (fun st j =>
    let r := construct F e (fun i => (e.g.objects[i]?.map (·.parentJoint)).getD 0 == j) st.2
    (st.1 ++ [r.1], r.2)) ([], comp)

/-- `TreeBroadPhaseManagerTpl::update`, `tree-broadphase-manager.hxx:11-18` -/
def treeUpdate (F : Fcl K) (e : Env K) (compute_local_aabb : Bool) : List (Man K) × (ℕ → Bool) →
    Option (List (Man K) × (ℕ → Bool))
  | ([], comp) => some ([], comp)
  | (m :: l, comp) =>
    match update F e compute_local_aabb (m, comp) with
    | none => none
    | some (m, comp) =>
      match treeUpdate F e compute_local_aabb (l, comp) with
      | none => none
      | some (l, comp) => some (m :: l, comp)

end
end Pin.Broadphase
