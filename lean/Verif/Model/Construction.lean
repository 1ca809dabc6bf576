import Verif.Spatial.Inertia

/-!
# Construction of a `Model`

Function-by-function model of `include/pinocchio/multibody/model.hpp` / `model.hxx`:
the tables of a `ModelTpl` and the calls that grow it.

Conventions:
* `std::vector` and Eigen vectors are `List`s; `int` and `JointIndex` are `ℕ` (no overflow);
* a call returns `Res`: `ok newState value`, `throw stateLeftBehind` (a C++ exception, with whatever
  had already been written), or `ub` (out-of-range `operator[]`);
* `assert` is compiled out (release build);
* a joint is described by its payload (the joint type with its own parameters, not used here), its
  sizes, and, for a mimic joint, the id and the indexes of the mimicked joint.
-/

namespace Pin
variable {K P : Type*}

/-- Outcome of a C++ call on a state. -/
inductive Res (S A : Type*) where
  | ok (s : S) (a : A)
  | throw (s : S)
  | ub

/-- What `addJoint` needs from a `JointModel`: `joint/joint-model-base.hpp:137-175`, and for a mimic
joint `joint/joint-mimic.hpp:597-616` (id, idx_q, idx_v of the mimicked joint). -/
structure JDesc (P : Type*) where
  payload : P
  nq : ℕ
  nv : ℕ
  nvx : ℕ
  mimic : Option (ℕ × ℕ × ℕ)

/-- A stored joint: description and indexes (`i_id`, `i_q`, `i_v`, `i_vExtended`). -/
structure JEntry (P : Type*) where
  desc : JDesc P
  id : ℕ
  idx_q : ℕ
  idx_v : ℕ
  idx_vx : ℕ

/-- `setIndexes`: `joint/joint-model-base.hpp:200-206`; for mimic joints
`joint/joint-mimic.hpp:645-654`, which throws (`none`) unless the id is larger than the mimicked id. -/
def JDesc.setIndexes (d : JDesc P) (id q v vx : ℕ) : Option (JEntry P) :=
  match d.mimic with
  | none => some ⟨d, id, q, v, vx⟩
  | some (mid, mq, mv) => if mid < id then some ⟨d, id, mq, mv, vx⟩ else none

/-- `FrameTpl`, `multibody/frame.hpp`; `type` is the bit mask of `FrameType` (frame.hpp:32-41). -/
structure Frame (K : Type*) where
  name : String
  parentJoint : ℕ
  parentFrame : ℕ
  placement : SE3 K
  type : ℕ
  inertia : Inertia K

/-- `FrameType`, `multibody/frame.hpp:32-41`. -/
def OP_FRAME : ℕ := 1
/-- see `OP_FRAME` -/
def JOINT : ℕ := 2
/-- see `OP_FRAME` -/
def FIXED_JOINT : ℕ := 4
/-- see `OP_FRAME` -/
def BODY : ℕ := 8
/-- see `OP_FRAME` -/
def SENSOR : ℕ := 16

/-- `ModelTpl`, `multibody/model.hpp:96-221`. -/
structure Model (K P : Type*) where
  nq : ℕ
  nv : ℕ
  nvx : ℕ
  njoints : ℕ
  nbodies : ℕ
  nframes : ℕ
  inertias : List (Inertia K)
  jointPlacements : List (SE3 K)
  joints : List (JEntry P)
  idx_qs : List ℕ
  nqs : List ℕ
  idx_vs : List ℕ
  nvs : List ℕ
  idx_vxs : List ℕ
  nvxs : List ℕ
  parents : List ℕ
  children : List (List ℕ)
  mimicking : List ℕ
  mimicked : List ℕ
  names : List String
  armature : List K
  rotorInertia : List K
  rotorGearRatio : List K
  friction : List K
  damping : List K
  effortLimit : List K
  velocityLimit : List K
  lowerPositionLimit : List K
  upperPositionLimit : List K
  frames : List (Frame K)
  supports : List (List ℕ)
  mimicSupports : List (List ℕ)
  subtrees : List (List ℕ)

/-- `v.conservativeResize(n)`: truncates, or extends with unspecified values (here `junk`). -/
def resize (junk : K) (l : List K) (n : ℕ) : List K :=
  l.take n ++ List.replicate (n - l.length) junk

/-- `v.segment(i, x.size()) = x` (on a segment inside the vector). -/
def setSeg (l : List K) (i : ℕ) (x : List K) : List K :=
  l.take i ++ x ++ l.drop (i + x.length)

namespace Model
section core
variable [Zero K] [One K]

/-- `FilterFrame::operator()`, `multibody/model.hxx:19-36`. -/
def filterFrame (name : String) (mask : ℕ) (f : Frame K) : Bool :=
  (mask &&& f.type) != 0 && (name == f.name)

/-- `existFrame`, `multibody/model.hxx:478-484`. -/
def existFrame (m : Model K P) (name : String) (mask : ℕ) : Bool :=
  m.frames.any (filterFrame name mask)

/-- `getFrameId`, `multibody/model.hxx:464-476`: index of the first matching frame (or the number of
frames); throws (`none`) when a second frame matches. -/
def getFrameId (m : Model K P) (name : String) (mask : ℕ) : Option ℕ :=
  let i := m.frames.findIdx (filterFrame name mask)
  if i = m.frames.length ∨ (m.frames.drop (i + 1)).any (filterFrame name mask) = false then some i
  else none

/-- `getJointId`, `multibody/model.hxx:446-455`. -/
def getJointId (m : Model K P) (name : String) : ℕ := m.names.findIdx (· == name)

/-- `existJointName`, `multibody/model.hxx:457-462`. -/
def existJointName (m : Model K P) (name : String) : Bool := m.names.any (· == name)

/-- the loop of `addJointIndexToParentSubtrees`, `multibody/model.hxx:511-520`:
`for (p = start; p > 0; p = parents[p]) subtrees[p].push_back(id); subtrees[0].push_back(id)`.
`fuel` bounds the number of iterations (the loop terminates because `parents[p] < p`). -/
def pushSubtrees (parents : List ℕ) (id : ℕ) : (fuel p : ℕ) → List (List ℕ) → List (List ℕ)
  | 0, _, st => st.modify 0 (· ++ [id])
  | fuel + 1, p, st =>
    if p > 0 then pushSubtrees parents id fuel (parents.getD p 0) (st.modify p (· ++ [id]))
    else st.modify 0 (· ++ [id])

/-- Arguments of the 10-argument `addJoint`. -/
structure JointArgs (K P : Type*) where
  parent : ℕ
  joint : JDesc P
  placement : SE3 K
  name : String
  maxEffort : List K
  maxVelocity : List K
  minConfig : List K
  maxConfig : List K
  friction : List K
  damping : List K

/-- `addJoint`, `multibody/model.hxx:59-168`. -/
def addJoint (m : Model K P) (a : JointArgs K P) : Res (Model K P) ℕ :=
  if a.maxEffort.length ≠ a.joint.nv then .throw m
  else if a.maxVelocity.length ≠ a.joint.nv then .throw m
  else if a.minConfig.length ≠ a.joint.nq then .throw m
  else if a.maxConfig.length ≠ a.joint.nq then .throw m
  else if a.friction.length ≠ a.joint.nv then .throw m
  else if a.damping.length ≠ a.joint.nv then .throw m
  else if ¬ a.parent < m.njoints then .throw m
  else
    let id := m.njoints
    match a.joint.setIndexes id m.nq m.nv m.nvx with
    | none =>
      -- `njoints++` and `joints.push_back` have been executed when setIndexes throws
      .throw { m with
        njoints := m.njoints + 1,
        joints := m.joints ++ [⟨a.joint, 0, (a.joint.mimic.getD (0, 0, 0)).2.1,
          (a.joint.mimic.getD (0, 0, 0)).2.2, 0⟩] }
    | some e =>
      let nq := m.nq + a.joint.nq
      let nv := m.nv + a.joint.nv
      let parents := m.parents ++ [a.parent]
      let supp := m.supports.getD a.parent []
      let msupp := m.mimicSupports.getD a.parent []
      let isMimic := a.joint.mimic.isSome
      .ok { m with
        njoints := m.njoints + 1
        joints := m.joints ++ [e]
        inertias := m.inertias ++ [0]
        parents := parents
        children := (m.children ++ [[]]).modify a.parent (· ++ [id])
        jointPlacements := m.jointPlacements ++ [a.placement]
        names := m.names ++ [a.name]
        nq := nq
        nqs := m.nqs ++ [a.joint.nq]
        idx_qs := m.idx_qs ++ [e.idx_q]
        nv := nv
        nvs := m.nvs ++ [a.joint.nv]
        idx_vs := m.idx_vs ++ [e.idx_v]
        nvx := m.nvx + a.joint.nvx
        nvxs := m.nvxs ++ [a.joint.nvx]
        idx_vxs := m.idx_vxs ++ [e.idx_vx]
        effortLimit := setSeg (resize 0 m.effortLimit nv) e.idx_v a.maxEffort
        velocityLimit := setSeg (resize 0 m.velocityLimit nv) e.idx_v a.maxVelocity
        lowerPositionLimit := setSeg (resize 0 m.lowerPositionLimit nq) e.idx_q a.minConfig
        upperPositionLimit := setSeg (resize 0 m.upperPositionLimit nq) e.idx_q a.maxConfig
        armature := setSeg (resize 0 m.armature nv) e.idx_v (List.replicate a.joint.nv 0)
        rotorInertia := setSeg (resize 0 m.rotorInertia nv) e.idx_v (List.replicate a.joint.nv 0)
        rotorGearRatio := setSeg (resize 0 m.rotorGearRatio nv) e.idx_v (List.replicate a.joint.nv 1)
        friction := setSeg (resize 0 m.friction nv) e.idx_v a.friction
        damping := setSeg (resize 0 m.damping nv) e.idx_v a.damping
        subtrees := pushSubtrees parents id (id + 1) a.parent (m.subtrees ++ [[id]])
        supports := m.supports ++ [supp ++ [id]]
        mimicSupports := m.mimicSupports ++ [if isMimic then msupp ++ [id] else msupp]
        mimicking := if isMimic then m.mimicking ++ [id] else m.mimicking
        mimicked := match a.joint.mimic with
          | some (mid, _, _) => m.mimicked ++ [mid]
          | none => m.mimicked } id

end core

section frames
variable [Field K] [LinearOrder K] [HasEps K]

/-- `addFrame`, `multibody/model.hxx:486-509`. -/
def addFrame (m : Model K P) (f : Frame K) (appendInertia : Bool := true) : Res (Model K P) ℕ :=
  if ¬ f.parentJoint < m.njoints then .throw m
  else if m.existFrame f.name f.type then
    match m.getFrameId f.name f.type with
    | some i => .ok m i
    | none => .throw m
  else
    .ok { m with
      frames := m.frames ++ [f]
      inertias := if appendInertia then
          m.inertias.modify f.parentJoint (fun Y => Y + f.inertia.act f.placement)
        else m.inertias
      nframes := m.nframes + 1 } (m.nframes + 1 - 1)

/-- `ModelTpl()`, `multibody/model.hpp:223-252`, before the universe frame is added; `p0` is the payload
of the default-constructed joint 0. -/
def bare (p0 : P) : Model K P where
  nq := 0
  nv := 0
  nvx := 0
  njoints := 1
  nbodies := 1
  nframes := 0
  inertias := [0]
  jointPlacements := [1]
  joints := [⟨⟨p0, 0, 0, 0, none⟩, 0, 0, 0, 0⟩]
  idx_qs := [0]
  nqs := [0]
  idx_vs := [0]
  nvs := [0]
  idx_vxs := [0]
  nvxs := [0]
  parents := [0]
  children := [[]]
  mimicking := []
  mimicked := []
  names := ["universe"]
  armature := []
  rotorInertia := []
  rotorGearRatio := []
  friction := []
  damping := []
  effortLimit := []
  velocityLimit := []
  lowerPositionLimit := []
  upperPositionLimit := []
  frames := []
  supports := [[0]]
  mimicSupports := [[0]]
  subtrees := [[]]

/-- the frame added by the constructor -/
def universeFrame : Frame K := ⟨"universe", 0, 0, 1, FIXED_JOINT, 0⟩

/-- `ModelTpl()`, `multibody/model.hpp:223-252`. -/
def empty (p0 : P) : Model K P :=
  match (bare p0).addFrame (universeFrame (K := K)) with
  | .ok m _ => m
  | .throw m => m
  | .ub => bare p0

/-- `addJointFrame`, `multibody/model.hxx:212-232`; `prev = none` is the default `-1`. -/
def addJointFrame (m : Model K P) (j : ℕ) (prev : Option ℕ) : Res (Model K P) ℕ :=
  if ¬ j < m.joints.length then .throw m
  else
    match (match prev with
      | some p => some p
      | none => m.getFrameId (m.names.getD (m.parents.getD j 0) "") (JOINT ||| FIXED_JOINT)) with
    | none => .throw m
    | some p => m.addFrame ⟨m.names.getD j "", j, p, 1, JOINT, 0⟩

/-- `appendBodyToJoint`, `multibody/model.hxx:405-412`. -/
def appendBodyToJoint (m : Model K P) (j : ℕ) (Y : Inertia K) (M : SE3 K) : Res (Model K P) Unit :=
  if ¬ j < m.inertias.length then .ub
  else .ok { m with
    inertias := m.inertias.modify j (fun X => X + Y.act M)
    nbodies := m.nbodies + 1 } ()

/-- `addBodyFrame`, `multibody/model.hxx:414-430`. -/
def addBodyFrame (m : Model K P) (name : String) (j : ℕ) (M : SE3 K) (parentFrame : Option ℕ) :
    Res (Model K P) ℕ :=
  match parentFrame with
  | none =>
    if ¬ j < m.names.length then .ub
    else
      match m.getFrameId (m.names.getD j "") (JOINT ||| FIXED_JOINT) with
      | none => .throw m
      | some p =>
        if ¬ p < m.frames.length then .throw m else m.addFrame ⟨name, j, p, M, BODY, 0⟩
  | some p => if ¬ p < m.frames.length then .throw m else m.addFrame ⟨name, j, p, M, BODY, 0⟩
end frames
end Model
end Pin
