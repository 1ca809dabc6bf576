import Verif.Model.Reduce

/-!
# `appendModel`

Model of `include/pinocchio/algorithm/model.hxx:13-497` (the overload without geometry), applied to a freshly constructed
output model as `algorithm/model.hpp:42-58` does.

Simplified: the geometry objects and collision pairs (`model.hxx:113-131`, `243-261`, `455-496`) and the reference
configurations stored in the model (`model.hxx:405-453`) are left out; the memory reservations (`model.hxx:345-353`) have no
effect but to keep the reference `pframe` of `appendUniverseToModel` valid; scalars are exact, so the tests for NaN
(`x == x`) hold. Reading the parameters of a joint of an input is total (in range for every constructed model, `C01_tables`).
-/

namespace Pin
variable {K P : Type*}

/-- sequence of two calls on the same state -/
def Res.bind {S A B : Type*} (r : Res S A) (f : S → A → Res S B) : Res S B :=
  match r with
  | .ok s a => f s a
  | .throw s => .throw s
  | .ub => .ub

namespace Model
section
variable [Field K] [LinearOrder K] [HasEps K]

/-- `details::getJointId`, `algorithm/model.hxx:21-33` (the assertion is compiled out) -/
def jointIdIn (inp m : Model K P) (name : String) : ℕ :=
  if inp.getJointId name = 0 ∧ inp.parents.getD 0 0 = 0 then m.getJointId (m.names.getD 0 "") else m.getJointId name

/-- `details::getFrameId`, `algorithm/model.hxx:39-54`; `none` when one of the two look-ups throws -/
def frameIdIn (inp m : Model K P) (name : String) (type : ℕ) : Option ℕ :=
  match inp.getFrameId name ANY with
  | none => none
  | some id =>
    if id = 0 ∧ (inp.frames.getD 0 universeFrame).parentFrame = 0 ∧ (inp.frames.getD 0 universeFrame).parentJoint = 0 then
      m.getFrameId (m.frames.getD 0 universeFrame).name type
    else m.getFrameId name type

/-- one iteration of the copy of the frames of a joint, `algorithm/model.hxx:81-109` (universe) and `213-242` (other joints):
the frames attached to joint `jin` of the input go to joint `jid` of the result, with their placement changed by `pl`; `pf0`
is the parent frame of those whose parent is frame 0. -/
def appendFrame (inp : Model K P) (jin jid pf0 : ℕ) (pl : SE3 K → SE3 K) (f : Frame K) (m : Model K P) :
    Res (Model K P) Unit :=
  if f.parentJoint ≠ jin then .ok m ()
  else if m.existFrame f.name f.type then .throw m
  else
    match (if f.parentFrame ≠ 0 then
        (inp.frames[f.parentFrame]?).map fun pf => frameIdIn inp m pf.name pf.type
      else some (some pf0)) with
    | none => .ub
    | some none => .throw m
    | some (some pf) =>
      let m := if f.inertia ≠ 0 then { m with inertias := m.inertias.modify jid (fun Y => Y.subAssign f.inertia) } else m
      match m.addFrame { f with parentJoint := jid, parentFrame := pf, placement := pl f.placement } with
      | .ok m' _ => .ok m' ()
      | .throw m' => .throw m'
      | .ub => .ub

/-- the loop over the frames -/
def appendFrames (inp : Model K P) (jin jid pf0 : ℕ) (pl : SE3 K → SE3 K) : List (Frame K) → Model K P → Res (Model K P) Unit
  | [], m => .ok m ()
  | f :: l, m => (appendFrame inp jin jid pf0 pl f m).bind fun m' _ => appendFrames inp jin jid pf0 pl l m'

/-- `details::appendUniverseToModel`, `algorithm/model.hxx:57-111` -/
def appendUniverse (inp : Model K P) (parentFrame : ℕ) (M : SE3 K) (m : Model K P) : Res (Model K P) Unit :=
  match m.frames[parentFrame]? with
  | none => .throw m
  | some pframe =>
    (m.appendBodyToJoint pframe.parentJoint (inp.inertias.getD 0 0) (pframe.placement * M)).bind fun m' _ =>
      appendFrames inp 0 pframe.parentJoint parentFrame (fun X => pframe.placement * M * X) (inp.frames.drop 1) m'

/-- `updateMimicIds`, `algorithm/model.hxx:152-184`; `none` when the mimicked joint is not in the result (read past the end of
`joints`) -/
def appendDesc (inp m : Model K P) (d : JDesc P) : Option (JDesc P) :=
  match d.mimic with
  | none => some d
  | some (mid, _, _) =>
    let id := m.getJointId (inp.names.getD mid "")
    match m.joints[id]? with
    | some p => some { d with mimic := some (id, p.idx_q, p.idx_v) }
    | none => none

/-- `AppendJointOfModelAlgoTpl::algo`, `algorithm/model.hxx:186-259`; the loop on the geometries (`260-276`) is left out -/
def appendJoint (inp : Model K P) (parent : ℕ) (pMi : SE3 K) (j : ℕ) (m : Model K P) : Res (Model K P) Unit :=
  match inp.joints[j]? with
  | none => .ub
  | some e =>
    let i := e.id
    let name := inp.names.getD i ""
    let pa := inp.parents.getD i 0
    let parent := if 0 < pa then jointIdIn inp m (inp.names.getD pa "") else parent
    if m.existJointName name then .throw m
    else
      match appendDesc inp m e.desc with
      | none => .ub
      | some d =>
        (m.addJoint ⟨parent, d, pMi * inp.jointPlacements.getD i 1, name, selV e inp.effortLimit, selV e inp.velocityLimit,
            selQ e inp.lowerPositionLimit, selQ e inp.upperPositionLimit, selV e inp.friction, selV e inp.damping⟩).bind
          fun m id => (m.appendBodyToJoint id (inp.inertias.getD i 0) 1).bind fun m _ =>
            match m.joints[id]? with
            | none => .ub
            | some out =>
              appendFrames inp i id 0 (fun X => X) (inp.frames.drop 1) { m with
                rotorInertia := setSeg m.rotorInertia out.idx_v (selV e inp.rotorInertia)
                rotorGearRatio := setSeg m.rotorGearRatio out.idx_v (selV e inp.rotorGearRatio) }

/-- a loop over joints of an input -/
def appendJoints (inp : Model K P) (parent : ℕ) (pMi : ℕ → SE3 K) : List ℕ → Model K P → Res (Model K P) Unit
  | [], m => .ok m ()
  | j :: l, m => (appendJoint inp parent (pMi j) j m).bind fun m' _ => appendJoints inp parent pMi l m'

/-- `hasAncestor`, `algorithm/model.hxx:304-320` -/
def hasAncestor (m : Model K P) (child parent : ℕ) : Bool := (m.supports.getD child []).any (· == parent)

/-- the joints of `A` copied before those of `B`, `algorithm/model.hxx:360-379`: those up to the joint `p` of the frame, then
the descendants of `p` -/
def jointsBefore (A : Model K P) (p : ℕ) : List ℕ :=
  List.range' 1 p ++ (List.range' (p + 1) (A.joints.length - (p + 1))).filter (fun j => A.hasAncestor j p)

/-- the joints of `A` copied after those of `B`, `algorithm/model.hxx:360-379` -/
def jointsAfter (A : Model K P) (p : ℕ) : List ℕ :=
  (List.range' (p + 1) (A.joints.length - (p + 1))).filter (fun j => !A.hasAncestor j p)

/-- `appendModel(modelA, modelB, frameInModelA, aMb)`, `algorithm/model.hxx:322-500`. `p0` is the default joint of a fresh
model. -/
def appendModel (A B : Model K P) (p0 : P) (frame : ℕ) (aMb : SE3 K) : Res (Model K P) Unit :=
  if ¬ frame < A.nframes then .throw (empty p0)
  else
    match A.frames[frame]? with
    | none => .ub
    | some fr =>
      (appendUniverse A 0 1 (empty p0)).bind fun m _ =>
      (appendJoints A 0 (fun _ => 1) (A.jointsBefore fr.parentJoint) m).bind fun m _ =>
      match frameIdIn A m fr.name fr.type with
      | none => .throw m
      | some pf =>
        (appendUniverse B pf aMb m).bind fun m _ =>
        (appendJoints B fr.parentJoint (fun j => if B.parents.getD j 0 = 0 then fr.placement * aMb else 1)
          (List.range' 1 (B.joints.length - 1)) m).bind fun m _ =>
        appendJoints A 0 (fun _ => 1) (A.jointsAfter fr.parentJoint) m

end
end Model
end Pin
