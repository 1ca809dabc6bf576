import Mathlib.Logic.Relation
import Verif.Algo.Aba
import Verif.Algo.Kinematics
import Verif.Geom.Defs

/-!
# Pools and parallel loops

`multibody/pool/*.hpp`, `algorithm/parallel/*.hpp`, `collision/parallel/geometry.hpp`, `collision/collision.hxx`.

An OpenMP loop is modelled by a transition system: a thread that has nothing to do takes any iteration that nobody has
taken yet (this covers the static and the dynamic schedules), and then executes the body one memory access to the shared
variables, or one pass of an algorithm over one joint, at a time, all interleavings with the other threads being allowed
(sequential consistency: the unsynchronised accesses to `is_colliding` are a data race for the C++ standard, see DESIGN.md).
-/

namespace Pin

/-! ## pools -/

/-- `ModelPoolTpl`, `multibody/pool/model.hpp:18-165` -/
structure Pool (M D : Type*) where
  models : List M
  datas : List D

namespace Pool
variable {M D : Type*}

/-- the constructor, `pool/model.hpp:41-46`; `mk` builds a `Data` from a model -/
def ofModel (mk : M → D) (m : M) (size : ℕ) : Pool M D := ⟨List.replicate size m, List.replicate size (mk m)⟩

/-- `update`, `pool/model.hpp:62-65` -/
def update (p : Pool M D) (d : D) : Pool M D := { p with datas := List.replicate p.datas.length d }

/-- `std::vector::resize(n)`: cut, or complete with default-constructed elements -/
def resizeVec {α : Type*} (dflt : α) (l : List α) (n : ℕ) : List α := l.take n ++ List.replicate (n - l.length) dflt

/-- `std::fill(v.begin() + k, v.end(), v[0])`, `pool/model.hpp:80-86` -/
def fillFrom {α : Type*} (k : ℕ) (l : List α) : List α :=
  match l with
  | [] => []
  | x :: _ => l.take k ++ List.replicate (l.length - k) x

/-- `resize`, `pool/model.hpp:74-92`; `m0` and `d0` are a default-constructed model and data -/
def resize (m0 : M) (d0 : D) (p : Pool M D) (n : ℕ) : Pool M D :=
  let size := p.datas.length
  let p : Pool M D := ⟨resizeVec m0 p.models n, resizeVec d0 p.datas n⟩
  if size < n then ⟨fillFrom (n - size) p.models, fillFrom (n - size) p.datas⟩ else p

end Pool

/-- `GeometryPoolTpl`, `multibody/pool/geometry.hpp:14-200` -/
structure GeomPool (M D G H : Type*) where
  base : Pool M D
  gmodels : List G
  gdatas : List H

namespace GeomPool
variable {M D G H : Type*}

/-- the constructor, `pool/geometry.hpp:42-62` (a clone is equal to the original; `oMg` is set to the identity there) -/
def ofModel (mk : M → D) (mkG : G → H) (m : M) (g : G) (size : ℕ) : GeomPool M D G H :=
  ⟨Pool.ofModel mk m size, List.replicate size g, List.replicate size (mkG g)⟩

/-- the loop of `doResize`, `pool/geometry.hpp:190-197`: entries from `cur` to `n` are rebuilt from entry 0 -/
def rebuild (mkG : G → H) (cur n : ℕ) (gm : List G) (gd : List H) : List G × List H :=
  match gm with
  | [] => (gm, gd)
  | g :: _ => (gm.take cur ++ List.replicate (n - cur) g, gd.take cur ++ List.replicate (n - cur) (mkG g))

/-- `resize`: the base class resizes its vectors and then calls `doResize`, `pool/geometry.hpp:187-200`, which reads
`current_size = size()` — the size of the vector of `Data` just resized, that is `new_size`. -/
def resize (m0 : M) (d0 : D) (g0 : G) (h0 : H) (mkG : G → H) (p : GeomPool M D G H) (n : ℕ) : GeomPool M D G H :=
  let base := p.base.resize m0 d0 n
  let cur := base.datas.length
  let gm := Pool.resizeVec g0 p.gmodels n
  let gd := Pool.resizeVec h0 p.gdatas n
  if cur < n then
    let r := rebuild mkG cur n gm gd
    ⟨base, r.1, r.2⟩
  else ⟨base, gm, gd⟩

end GeomPool

/-! ## argument checks -/

/-- rows and columns of an argument -/
structure Dims where
  rows : ℕ
  cols : ℕ
deriving DecidableEq

/-- the checks of `rneaInParallel`, `algorithm/parallel/rnea.hpp:53-68` -/
def rneaParChecks (pool threads nq nv : ℕ) (q v a tau : Dims) : Bool :=
  decide (pool > 0) && decide (threads ≤ pool) && (q.rows == nq) && (v.rows == nv) && (a.rows == nv) && (tau.rows == nv)
    && (q.cols == v.cols) && (q.cols == a.cols) && (q.cols == tau.cols)

/-- the checks of `abaInParallel`, `algorithm/parallel/aba.hpp:55-70`: `res` is `a`, and `tau` is not looked at -/
def abaParChecks (pool threads nq nv : ℕ) (q v _tau a : Dims) : Bool :=
  decide (pool > 0) && decide (threads ≤ pool) && (q.rows == nq) && (v.rows == nv) && (a.rows == nv) && (a.rows == nv)
    && (q.cols == v.cols) && (q.cols == a.cols) && (q.cols == a.cols)

/-! ## parallel loop with one datum per thread -/

/-- what a thread is doing: nothing, or iteration `i` with these steps left -/
inductive Doing (D : Type*)
  | idle
  | work (i : ℕ) (left : List (D → D))

/-- state of a parallel loop: iterations nobody has taken, data of the threads, columns of the result -/
structure PState (D R : Type*) where
  todo : Set ℕ
  datas : ℕ → D
  res : ℕ → R
  th : ℕ → Doing D

/-- `#pragma omp parallel for` over a body that runs `steps t i` on the data of its thread `t` and then writes
`res.col(i) = out(i, data)`: `algorithm/parallel/rnea.hpp:74-82`, `aba.hpp:76-84`, `collision/parallel/geometry.hpp:144-157`;
`T` threads. -/
inductive PStep {D R : Type*} (T : ℕ) (steps : ℕ → ℕ → List (D → D)) (out : D → R) : PState D R → PState D R → Prop
  | take (s : PState D R) (t i : ℕ) (ht : t < T) (hidle : s.th t = .idle) (hi : i ∈ s.todo) :
      PStep T steps out s { s with todo := s.todo \ {i}, th := upd s.th t (.work i (steps t i)) }
  | work (s : PState D R) (t i : ℕ) (f : D → D) (l : List (D → D)) (ht : t < T) (h : s.th t = .work i (f :: l)) :
      PStep T steps out s { s with datas := upd s.datas t (f (s.datas t)), th := upd s.th t (.work i l) }
  | write (s : PState D R) (t i : ℕ) (ht : t < T) (h : s.th t = .work i []) :
      PStep T steps out s { s with res := upd s.res i (out (s.datas t)), th := upd s.th t .idle }

/-- the loop starts: all iterations are to be done, any data, any previous result -/
def PState.Init {D R : Type*} (n : ℕ) (s : PState D R) : Prop := s.todo = {i | i < n} ∧ ∀ t, s.th t = .idle

/-- the loop is over -/
def PState.Final {D R : Type*} (s : PState D R) : Prop := s.todo = ∅ ∧ ∀ t, s.th t = .idle

/-- the passes of `rnea` (`Algo/Rnea`, `rnea.hxx:111-160`) one joint at a time -/
def rneaSteps {K : Type*} [CommRing K] (s : Sys K) (q v a : ℕ → K) : List (Data K → Data K) :=
  [fun d => { d with tau := fun _ => 0, v := upd d.v 0 0, a_gf := upd d.a_gf 0 (-s.grav) }]
    ++ (List.range' 1 (s.n - 1)).map (rneaFwd s q v a)
    ++ (List.range' 1 (s.n - 1)).reverse.map (rneaBwd s)
    ++ [fun d => { d with tau := fun r => d.tau r + s.arm r * a r }]

/-- the passes of `aba` in the world convention (`Algo/Aba`, `aba.hxx:243-305`) one joint at a time -/
def abaSteps {K : Type*} [Field K] (s : Sys K) (q v tau : ℕ → K) : List (Data K → Data K) :=
  [fun d => { d with oa_gf := upd d.oa_gf 0 (-s.grav), of := upd d.of 0 0, u := tau }]
    ++ (List.range' 1 (s.n - 1)).map (abaWorldFwd1 s q v)
    ++ (List.range' 1 (s.n - 1)).reverse.map (abaWorldBwd s)
    ++ (List.range' 1 (s.n - 1)).map (abaWorldFwd2 s)
    ++ (List.range' 1 (s.n - 1)).reverse.map (abaWorldEnd s)

/-! ## collisions -/

/-- what `computeCollisions` writes: `collisionPairIndex` and `collisionResults[k].isCollision()` -/
structure CState where
  colliding : Bool
  idx : ℕ
  results : ℕ → Bool

/-- the loop of `computeCollisions`, `collision/collision.hxx:78-105`: `enabled k` is the test
`activeCollisionPairs[k] && !(…disableCollision || …)`, `col k` what the collision library answers for pair `k` -/
def ccLoop (enabled col : ℕ → Bool) (stop : Bool) : List ℕ → CState → CState
  | [], c => c
  | k :: l, c =>
    if enabled k then
      let c := { c with results := upd c.results k (col k) }
      if !c.colliding && col k then
        let c := { c with colliding := true, idx := k }
        if stop then c else ccLoop enabled col stop l c
      else ccLoop enabled col stop l c
    else ccLoop enabled col stop l c

/-- `computeCollisions(geom_model, geom_data, stopAtFirstCollision)`, `collision.hxx:78-105`, over `n` pairs; returns
`colliding` -/
def computeCollisions (enabled col : ℕ → Bool) (stop : Bool) (n : ℕ) (idx : ℕ) (results : ℕ → Bool) : CState :=
  ccLoop enabled col stop (List.range n) ⟨false, idx, results⟩

/-- `updateGeometryPlacements(model, data, geom_model, geom_data)`, `algorithm/geometry.hxx:34-52` -/
def updateGeometryPlacements {K : Type*} [CommRing K] (g : GeomModel) (placement : ℕ → SE3 K) (oMi : ℕ → SE3 K)
    (oMg : ℕ → SE3 K) : ℕ → SE3 K :=
  (List.range g.ngeoms).foldl (fun oMg i =>
    let j := (g.objects[i]?.map (·.parentJoint)).getD 0
    upd oMg i (if j > 0 then oMi j * placement i else placement i)) oMg

/-- the test made before a collision query, `collision.hxx:83-88` -/
def pairEnabled (g : GeomModel) (active : ℕ → Bool) (k : ℕ) : Bool :=
  active k && match g.pairs[k]? with
    | none => false
    | some p => !(((g.objects[p.1]?.map (·.disableCollision)).getD false) || ((g.objects[p.2]?.map (·.disableCollision)).getD false))

/-- the answer of the collision library for pair `k`, `collision.hxx:18-66`: `lib k` is the functor of this pair (shapes and
request included), called with the placements of its two objects -/
def pairCol {K : Type*} (lib : ℕ → SE3 K → SE3 K → Bool) (g : GeomModel) (oMg : ℕ → SE3 K) (k : ℕ) : Bool :=
  match g.pairs[k]? with
  | none => false
  | some p => lib k (oMg p.1) (oMg p.2)

/-- the geometry data of a thread and its `Data` -/
structure CollData (K : Type*) where
  data : Data K
  oMg : ℕ → SE3 K
  c : CState

/-- `computeCollisions(model, data, geom_model, geom_data, q, stop)`, `collision.hxx:112-127`, in three steps -/
def collisionSteps {K : Type*} [CommRing K] (s : Sys K) (g : GeomModel) (placement : ℕ → SE3 K)
    (lib : ℕ → SE3 K → SE3 K → Bool) (active : ℕ → Bool) (stop : Bool) (q : ℕ → K) : List (CollData K → CollData K) :=
  (List.range' 1 (s.n - 1)).map (fun i (d : CollData K) => { d with data := fk0Step s q i d.data })
    ++ [fun d => { d with oMg := updateGeometryPlacements g placement d.data.oMi d.oMg },
      fun d => { d with
        c := computeCollisions (pairEnabled g active) (pairCol lib g d.oMg) stop g.pairs.length d.c.idx d.c.results }]

/-! ### the parallel loop over pairs -/

/-- where a thread is in the body of the loop, `collision/parallel/geometry.hpp:34-55` -/
inductive At35
  | idle
  /-- iteration taken, `stopAtFirstCollision && is_colliding` not tested yet -/
  | start (k : ℕ)
  /-- test passed -/
  | passed (k : ℕ)
  /-- `res = computeCollision(...)` done -/
  | computed (k : ℕ) (res : Bool)
  /-- `!is_colliding && res` was true -/
  | saw (k : ℕ)
  /-- `is_colliding = true` done -/
  | flagged (k : ℕ)
deriving DecidableEq

/-- shared variables and threads -/
structure CPar where
  todo : Set ℕ
  colliding : Bool
  idx : ℕ
  results : ℕ → Bool
  th : ℕ → At35

/-- one access of one thread to the shared variables, `collision/parallel/geometry.hpp:34-55`. With `recheck = false` and
`enabled` always true it is the batch loop that stops at the first collision, `collision/parallel/geometry.hpp:118-140` (there
the flag is set without being read again, and there is no index). -/
inductive CStep (T : ℕ) (enabled col : ℕ → Bool) (stop recheck : Bool) : CPar → CPar → Prop
  | take (s : CPar) (t k : ℕ) (ht : t < T) (h : s.th t = .idle) (hk : k ∈ s.todo) :
      CStep T enabled col stop recheck s { s with todo := s.todo \ {k}, th := upd s.th t (.start k) }
  | skip (s : CPar) (t k : ℕ) (ht : t < T) (h : s.th t = .start k) (hc : stop = true ∧ s.colliding = true) :
      CStep T enabled col stop recheck s { s with th := upd s.th t .idle }
  | pass (s : CPar) (t k : ℕ) (ht : t < T) (h : s.th t = .start k) (hc : ¬ (stop = true ∧ s.colliding = true)) :
      CStep T enabled col stop recheck s { s with th := upd s.th t (.passed k) }
  | disabled (s : CPar) (t k : ℕ) (ht : t < T) (h : s.th t = .passed k) (he : enabled k = false) :
      CStep T enabled col stop recheck s { s with th := upd s.th t .idle }
  | compute (s : CPar) (t k : ℕ) (ht : t < T) (h : s.th t = .passed k) (he : enabled k = true) :
      CStep T enabled col stop recheck s
        { s with results := upd s.results k (col k), th := upd s.th t (.computed k (col k)) }
  | see (s : CPar) (t k : ℕ) (b : Bool) (ht : t < T) (h : s.th t = .computed k b)
      (hb : b = true ∧ (recheck = true → s.colliding = false)) :
      CStep T enabled col stop recheck s { s with th := upd s.th t (.saw k) }
  | pass2 (s : CPar) (t k : ℕ) (b : Bool) (ht : t < T) (h : s.th t = .computed k b)
      (hb : ¬ (b = true ∧ (recheck = true → s.colliding = false))) :
      CStep T enabled col stop recheck s { s with th := upd s.th t .idle }
  | flag (s : CPar) (t k : ℕ) (ht : t < T) (h : s.th t = .saw k) :
      CStep T enabled col stop recheck s { s with colliding := true, th := upd s.th t (.flagged k) }
  | index (s : CPar) (t k : ℕ) (ht : t < T) (h : s.th t = .flagged k) :
      CStep T enabled col stop recheck s { s with idx := k, th := upd s.th t .idle }

/-- the loop starts -/
def CPar.Init (n : ℕ) (s : CPar) : Prop := s.todo = {k | k < n} ∧ s.colliding = false ∧ ∀ t, s.th t = .idle

/-- the loop is over -/
def CPar.Final (s : CPar) : Prop := s.todo = ∅ ∧ ∀ t, s.th t = .idle

end Pin
