import Mathlib.Data.Sym.Sym2
import Mathlib.Data.Set.Insert
import Verif.Geom.Defs

/-!
# Specification: a registry of unordered pairs, and histories of calls
-/

namespace Pin

/-- what the caller can do to a `GeometryModel`, `removeGeometryObject` aside; `junk` is the value of the entries a resize
leaves unspecified -/
inductive GOp
  | addObject (junk : ℤ) (o : GObj)
  | addObjectM (junk : ℤ) (frames : List ℕ) (o : GObj)
  | addPair (a b : ℕ)
  | removePair (a b : ℕ)
  | removeAll
  | addAll
  | setPairs (rows cols : ℕ) (m : ℕ → ℕ → Bool) (upper : Bool)

/-- a call; a pair is built by the constructor of `CollisionPair`, which may throw -/
def GOp.exec (g : GeomModel) : GOp → Res GeomModel Unit
  | .addObject junk o => match g.addGeometryObject junk o with
    | .ok g _ => .ok g () | .throw g => .throw g | .ub => .ub
  | .addObjectM junk frames o => match g.addGeometryObjectM junk frames o with
    | .ok g _ => .ok g () | .throw g => .throw g | .ub => .ub
  | .addPair a b => match CPair.mk? a b with | none => .throw g | some p => g.addCollisionPair p
  | .removePair a b => match CPair.mk? a b with | none => .throw g | some p => g.removeCollisionPair p
  | .removeAll => .ok g.removeAllCollisionPairs ()
  | .addAll => g.addAllCollisionPairs
  | .setPairs r c m u => g.setCollisionPairs r c m u

/-- a history of calls; the caller may catch exceptions and go on. `none` is undefined behaviour. -/
def runG : GeomModel → List GOp → Option GeomModel
  | g, [] => some g
  | g, op :: l => match op.exec g with
    | .ok g _ => runG g l
    | .throw g => runG g l
    | .ub => none

/-- the registry: parent joints of the objects, and a set of unordered pairs of objects -/
structure Registry where
  joints : List ℕ
  pairs : Set (Sym2 ℕ)

namespace Registry
/-- nothing registered -/
def empty : Registry := ⟨[], ∅⟩

/-- `a` and `b` are two different objects -/
def Valid (r : Registry) (a b : ℕ) : Prop := a ≠ b ∧ a < r.joints.length ∧ b < r.joints.length

open Classical in
/-- what each call means; calls with invalid arguments change nothing -/
noncomputable def step (r : Registry) : GOp → Registry
  | .addObject _ o => { r with joints := r.joints ++ [o.parentJoint] }
  | .addObjectM _ frames o =>
    if frames[o.parentFrame]? = some o.parentJoint then { r with joints := r.joints ++ [o.parentJoint] } else r
  | .addPair a b => if r.Valid a b then { r with pairs := insert s(a, b) r.pairs } else r
  | .removePair a b => if r.Valid a b then { r with pairs := r.pairs \ {s(a, b)} } else r
  | .removeAll => { r with pairs := ∅ }
  | .addAll => { r with
      pairs := {e | ∃ a b, r.Valid a b ∧ r.joints[a]? ≠ r.joints[b]? ∧ e = s(a, b)} }
  | .setPairs rows cols m upper =>
    if rows = r.joints.length ∧ cols = r.joints.length then
      { r with
        pairs := {e | ∃ a b, r.Valid a b ∧ a < b ∧ (if upper then m a b else m b a) = true ∧ e = s(a, b)} }
    else r

/-- the meaning of a history -/
noncomputable def run (ops : List GOp) : Registry := ops.foldl step empty
end Registry

/-- the only call with a precondition: the frame index given to `addGeometryObject(object, model)` must be a frame of
the model -/
def GOp.Pre : GOp → Prop
  | .addObjectM _ frames o => o.parentFrame < frames.length
  | _ => True

/-- the code's state represents a registry: same objects, the list of pairs enumerates the set without repetition, and
`existCollisionPair` and `findCollisionPair` answer according to the list -/
structure Represents (g : GeomModel) (r : Registry) : Prop where
  joints : g.objects.map (·.parentJoint) = r.joints
  ngeoms : g.ngeoms = r.joints.length
  pairs : ∀ e, e ∈ r.pairs ↔ ∃ p ∈ g.pairs, s(p.1, p.2) = e
  nodup : (g.pairs.map fun p => s(p.1, p.2)).Nodup
  valid : ∀ p ∈ g.pairs, r.Valid p.1 p.2
  exist : ∀ a b, a < g.ngeoms → b < g.ngeoms → ∃ x, g.existCollisionPair (a, b) = some x ∧ (x = true ↔ s(a, b) ∈ r.pairs)
  find : ∀ a b, a < g.ngeoms → b < g.ngeoms → ∃ k, g.findCollisionPair (a, b) = some k ∧
    ((s(a, b) ∉ r.pairs ∧ k = g.pairs.length) ∨ (∃ p, g.pairs[k]? = some p ∧ s(p.1, p.2) = s(a, b)))

end Pin

namespace Pin

/-- the index of an object once object `i` is gone -/
def renumber (i a : ℕ) : ℕ := if a > i then a - 1 else a

/-- the pairs that remain once object `i` is gone, in order and with the new indices -/
def pairsWithout (i : ℕ) (l : List CPair) : List CPair :=
  (l.filter fun p => p.1 ≠ i ∧ p.2 ≠ i).map fun p => (renumber i p.1, renumber i p.2)

/-- calls on a `GeometryData` that set activation flags -/
inductive FlagOp
  | activate (k : ℕ)
  | deactivate (k : ℕ)
  | activateAll
  | deactivateAll
  | setActive (rows cols : ℕ) (m : ℕ → ℕ → Bool) (upper : Bool)
  | status (geom : ℕ) (enable : Bool)

variable {K : Type*}

/-- a call, with the geometry model `g` -/
def FlagOp.exec (g : GeomModel) (d : GeomData K) : FlagOp → Res (GeomData K) Unit
  | .activate k => d.activateCollisionPair k
  | .deactivate k => d.deactivateCollisionPair k
  | .activateAll => .ok d.activateAllCollisionPairs ()
  | .deactivateAll => .ok d.deactivateAllCollisionPairs ()
  | .setActive r c m u => d.setActiveCollisionPairs g r c m u
  | .status geom e => d.setGeometryCollisionStatus g geom e

/-- a history; the caller may catch exceptions -/
def runFlags (g : GeomModel) : GeomData K → List FlagOp → Option (GeomData K)
  | d, [] => some d
  | d, op :: l => match op.exec g d with
    | .ok d _ => runFlags g d l
    | .throw d => runFlags g d l
    | .ub => none

/-- what a call asks of the flag of pair `k`, which holds the objects `p.1` and `p.2`; `none`: nothing -/
def FlagOp.asks (n k : ℕ) (p : CPair) : FlagOp → Option Bool
  | .activate j => if j = k then some true else none
  | .deactivate j => if j = k then some false else none
  | .activateAll => some true
  | .deactivateAll => some false
  | .setActive r c m upper => if r = n ∧ c = n then
      some (if upper then m (min p.1 p.2) (max p.1 p.2) else m (max p.1 p.2) (min p.1 p.2)) else none
  | .status geom e => if geom < n ∧ (p.1 = geom ∨ p.2 = geom) then some e else none

/-- the flag is what the last call that concerns it asked, `true` if there is none -/
def flagAfter (n k : ℕ) (p : CPair) (ops : List FlagOp) : Bool :=
  ((ops.filterMap (FlagOp.asks n k p)).getLast?).getD true

end Pin
