import Verif.Model.SerializeLemmas

/-!
# `Model::operator==` and `Model::cast`

Function-by-function model of the comparison and of the change of scalar type of joints and models.

Simplification: objects without a comparison of their own particular to this library (vectors, `SE3`, `Inertia`,
`Motion`, `Frame`) are compared member by member; this is the comparison of their primitive values, in the order in
which they would be saved.
-/

namespace Pin
variable {K L : Type}
open Arch

/-- `operator==` of floating-point numbers: a NaN is different from everything -/
def Flt.ceq [DecidableEq K] : Flt K → Flt K → Bool
  | .fin x, .fin y => x = y
  | .inf a, .inf b => a = b
  | _, _ => false

/-- comparison of primitive values -/
def Tok.ceq [DecidableEq K] : Tok K → Tok K → Bool
  | .num x, .num y => x.ceq y
  | .nat a, .nat b => a = b
  | .int a, .int b => a = b
  | .str a, .str b => a = b
  | .bool a, .bool b => a = b
  | _, _ => false

/-- comparison of sequences -/
def ceqL [DecidableEq K] : List (Tok K) → List (Tok K) → Bool
  | [], [] => true
  | a :: l, b :: l' => a.ceq b && ceqL l l'
  | _, _ => false

/-- comparison member by member (see the header) -/
def same (K : Type) [DecidableEq K] {α : Type} [Arch K α] (a b : α) : Bool := ceqL (save a : List (Tok K)) (save b)

/-- A change of scalar type: the conversion of a number, and what happens to rotation matrices once converted, an orthogonal
projection if the types differ (`internal::cast_call_normalize_method`, `spatial/se3-tpl.hpp:385-387`), nothing if they
are the same. -/
structure Conv (K L : Type) where
  sc : Flt K → Flt L
  nz : M3 (Flt L) → M3 (Flt L)

/-- the conversion to the same type -/
def Conv.refl (K : Type) : Conv K K := ⟨fun x => x, fun R => R⟩

/-- `cast<NewScalar>()` of a 3-vector -/
def castV3 (c : Conv K L) (v : V3 (Flt K)) : V3 (Flt L) := ⟨c.sc v.x, c.sc v.y, c.sc v.z⟩

/-- `cast<NewScalar>()` of a 3×3 matrix -/
def castM3 (c : Conv K L) (m : M3 (Flt K)) : M3 (Flt L) :=
  ⟨c.sc m.m00, c.sc m.m01, c.sc m.m02, c.sc m.m10, c.sc m.m11, c.sc m.m12, c.sc m.m20, c.sc m.m21, c.sc m.m22⟩

/-- `SE3Tpl::cast`, `spatial/se3-tpl.hpp:378-388` -/
def castSE3 (c : Conv K L) (M : SE3 (Flt K)) : SE3 (Flt L) := ⟨c.nz (castM3 c M.rot), castV3 c M.trans⟩

/-- `InertiaTpl::cast`, `spatial/inertia.hpp:910-916` -/
def castInertia (c : Conv K L) (Y : Inertia (Flt K)) : Inertia (Flt L) :=
  ⟨c.sc Y.mass, castV3 c Y.lever, ⟨c.sc Y.rotI.xx, c.sc Y.rotI.xy, c.sc Y.rotI.yy, c.sc Y.rotI.xz, c.sc Y.rotI.yz, c.sc Y.rotI.zz⟩⟩

/-- `MotionTpl::cast`, `spatial/motion-tpl.hpp:255-261` -/
def castMotion (c : Conv K L) (v : Motion (Flt K)) : Motion (Flt L) := ⟨castV3 c v.lin, castV3 c v.ang⟩

/-- `FrameTpl::cast`, `multibody/frame.hpp:218-226` -/
def castFrame (c : Conv K L) (f : Frame (Flt K)) : Frame (Flt L) :=
  ⟨f.name, f.parentJoint, f.parentFrame, castSE3 c f.placement, f.type, castInertia c f.inertia⟩

namespace SJoint

mutual
/-- `JointModelTpl::operator==`, `joint/joint-generic.hpp:337-340`: the indexes (`joint-model-base.hpp:279-286`), then the
comparison of the variants, hence of the type held and of the values: `JointModelBase::isEqual`
(`joint-model-base.hpp:274-277`), which compares the indexes only, unless the type has its own `isEqual`
(`joint-revolute-unaligned.hpp:652`, `joint-prismatic-unaligned.hpp:637`, `joint-revolute-unbounded-unaligned.hpp:186`,
`joint-helical-unaligned.hpp:694`, `joint-universal.hpp:471`, `joint-composite.hpp:422-436`); `joint-helical.hpp` and
`joint-mimic.hpp` have none -/
def jeq [DecidableEq K] : SJoint K → SJoint K → Bool
  | .plain k ix, .plain k' ix' => k = k' && ix = ix'
  | .axis k ix a, .axis k' ix' a' => k = k' && ix = ix' && same K a a'
  | .helical ax ix _, .helical ax' ix' _ => ax = ax' && ix = ix'
  | .helicalUnaligned ix a p, .helicalUnaligned ix' a' p' => ix = ix' && same K a a' && same K p p'
  | .universal ix a b, .universal ix' a' b' => ix = ix' && same K a a' && same K b b'
  | .composite ix t js ps, .composite ix' t' js' ps' => ix = ix' && t = t' && jeqs js js' && same K ps ps'
  | .mimic ix _ _ _ _ _, .mimic ix' _ _ _ _ _ => ix = ix'
  | _, _ => false
/-- comparison of vectors of joints -/
def jeqs [DecidableEq K] : List (SJoint K) → List (SJoint K) → Bool
  | [], [] => true
  | j :: js, j' :: js' => jeq j j' && jeqs js js'
  | _, _ => false
end

/-- `nq()` and `nvExtended()` of the joints that a mimic joint can follow (`is_mimicable_t` in `joint/*.hpp`): one degree
of freedom; two configuration variables for unbounded joints -/
def leafNq : SJoint K → ℤ
  | .plain .rubx _ => 2
  | .plain .ruby _ => 2
  | .plain .rubz _ => 2
  | .axis .revoluteUnbounded _ _ => 2
  | _ => 1

mutual
/-- `cast<NewScalar>()`: every type builds the joint from its converted parameters and sets the indexes; composite joints
`joint/joint-composite.hpp:440-464`; mimic joints `joint/joint-mimic.hpp:743-753`: the constructor (`:591-616`), then
`setIndexes`, which throws unless the id is larger than that of the joint followed, then `setMimicIndexes`, with the
extended index of the mimic joint -/
def castJ (c : Conv K L) : SJoint K → Option (SJoint L)
  | .plain k ix => some (.plain k ix)
  | .axis k ix a => some (.axis k ix (castV3 c a))
  | .helical ax ix h => some (.helical ax ix (c.sc h))
  | .helicalUnaligned ix a h => some (.helicalUnaligned ix (castV3 c a) (c.sc h))
  | .universal ix a b => some (.universal ix (castV3 c a) (castV3 c b))
  | .composite ix t js ps => (castJs c js).map fun js' => .composite ix t js' (ps.map (castSE3 c))
  | .mimic ix jm s o _ _ => do
    let jm' ← castJ c jm
    let jm₁ ← jm'.setIndexes ⟨jm'.idx.id, 0, 0, jm'.idx.vx⟩
    let j ← (SJoint.mimic ⟨maxIndex, jm'.idx.q, jm'.idx.v, -1⟩ jm₁ (c.sc s) (c.sc o) (some jm'.leafNq) (some 1)).setIndexes ix
    match j with
    | .mimic ix' jm₂ s' o' a b => do
      let jm₃ ← jm₂.setIndexes ⟨jm.idx.id, 0, 0, ix.vx⟩
      some (.mimic ⟨ix'.id, ix.q, ix.v, ix'.vx⟩ jm₃ s' o' a b)
    | _ => none
/-- conversion of a vector of joints -/
def castJs (c : Conv K L) : List (SJoint K) → Option (List (SJoint L))
  | [] => some []
  | j :: js => do
    let j' ← castJ c j
    let js' ← castJs c js
    some (j' :: js')
end

end SJoint

namespace SModel

/-- `ModelTpl::operator==`, `multibody/model.hxx:305-402` (`m == other`; `none`: out-of-range access). The early returns do
not change the result. Neither `supports` nor `mimic_joint_supports` nor the names of the reference configurations are
compared, and the loops over the inertias and the placements start at one. -/
def eqv [DecidableEq K] (m other : SModel K) : Option Bool :=
  if other.nq = m.nq && other.nv = m.nv && other.nvx = m.nvx && other.njoints = m.njoints && other.nbodies = m.nbodies
      && other.nframes = m.nframes && other.parents = m.parents && other.children = m.children && other.names = m.names
      && other.subtrees = m.subtrees && other.mimicking = m.mimicking && other.mimicked = m.mimicked
      && same K other.gravity m.gravity && other.name = m.name
      && other.idx_qs = m.idx_qs && other.nqs = m.nqs && other.idx_vs = m.idx_vs && other.nvs = m.nvs
      && other.idx_vxs = m.idx_vxs && other.nvxs = m.nvxs
      && other.refs.length = m.refs.length && same K (m.refs.map (·.2)) (other.refs.map (·.2))
      && same K other.armature m.armature && same K other.friction m.friction && same K other.damping m.damping
      && same K other.rotorInertia m.rotorInertia && same K other.rotorGearRatio m.rotorGearRatio
      && same K other.effortLimit m.effortLimit && same K other.velocityLimit m.velocityLimit
      && same K other.lowerPositionLimit m.lowerPositionLimit && same K other.upperPositionLimit m.upperPositionLimit
  then
    if other.inertias.length < m.inertias.length ∧ 1 < m.inertias.length then none
    else if !same K ((other.inertias.take m.inertias.length).drop 1) (m.inertias.drop 1) then some false
    else if m.jointPlacements.length < other.jointPlacements.length ∧ 1 < other.jointPlacements.length then none
    else if !same K (other.jointPlacements.drop 1) ((m.jointPlacements.take other.jointPlacements.length).drop 1)
      then some false
    else some (SJoint.jeqs other.joints m.joints && same K other.frames m.frames)
  else some false

/-- `ModelTpl::cast<NewScalar>()`, `multibody/model.hxx:234-303`; the vectors of joints, inertias and placements, converted
by one loop over the joints, are taken of the same length -/
def castModel (c : Conv K L) (m : SModel K) : Option (SModel L) := do
  let joints ← SJoint.castJs c m.joints
  some {
    nq := m.nq, nv := m.nv, nvx := m.nvx, njoints := m.njoints, nbodies := m.nbodies, nframes := m.nframes
    parents := m.parents, children := m.children, names := m.names, subtrees := m.subtrees, supports := m.supports
    mimicSupports := m.mimicSupports, mimicking := m.mimicking, mimicked := m.mimicked
    gravity := castMotion c m.gravity, name := m.name
    idx_qs := m.idx_qs, nqs := m.nqs, idx_vs := m.idx_vs, nvs := m.nvs, idx_vxs := m.idx_vxs, nvxs := m.nvxs
    armature := m.armature.map c.sc, friction := m.friction.map c.sc, damping := m.damping.map c.sc
    rotorInertia := m.rotorInertia.map c.sc, rotorGearRatio := m.rotorGearRatio.map c.sc
    effortLimit := m.effortLimit.map c.sc, velocityLimit := m.velocityLimit.map c.sc
    lowerPositionLimit := m.lowerPositionLimit.map c.sc, upperPositionLimit := m.upperPositionLimit.map c.sc
    refs := (m.refs.map fun e => (e.1, e.2.map c.sc)).foldl (fun r e => mapInsert e.1 e.2 r) []
    inertias := m.inertias.map (castInertia c), jointPlacements := m.jointPlacements.map (castSE3 c)
    joints := joints, frames := m.frames.map (castFrame c) }

end SModel
end Pin
