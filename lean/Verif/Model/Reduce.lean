import Verif.Model.ToSys
import Mathlib.Data.List.Sort

/-!
# `buildReducedModel`

Model of `include/pinocchio/algorithm/model.hxx:502-761` (the overload without geometry), applied to a freshly
constructed output model as `algorithm/model.hpp:131-145` does.

Simplified: the reference configurations stored in the model (`model.hxx:698-722`) are left out; the dynamic
memory reservations (`model.hxx:539-546`) have no effect. Reading one joint's segment of a parameter vector of the
input is total: it is in range for every model built by the construction calls (`C01_tables`).
-/

namespace Pin
variable {K P : Type*}

namespace Model

/-- `jointVelocitySelector(l)`: `joint/joint-model-base.hpp:381-410` -/
def selV (e : JEntry P) (l : List K) : List K := (l.drop e.idx_v).take e.desc.nv

/-- `jointConfigSelector(l)`: `joint/joint-model-base.hpp:320-350` -/
def selQ (e : JEntry P) (l : List K) : List K := (l.drop e.idx_q).take e.desc.nq

/-- the default type of `getFrameId` and `existFrame`, `multibody/model.hpp:447-461` -/
def ANY : ℕ := JOINT ||| FIXED_JOINT ||| BODY ||| OP_FRAME ||| SENSOR

section
variable [Field K] [LinearOrder K] [HasEps K]

/-- Copy of one frame of the input model, `algorithm/model.hxx:597-628` and again `model.hxx:727-759`. -/
def copyFrame (inp : Model K P) (lock : List ℕ) (m : Model K P) (f : Frame K) : Res (Model K P) Unit :=
  match inp.names[f.parentJoint]? with
  | none => .ub
  | some sname =>
    if f.parentJoint ∈ lock then
      if f.type == JOINT && m.existFrame f.name ANY && sname == f.name then .ok m ()
      else
        match m.getFrameId sname ANY with
        | none => .throw m
        | some jf =>
          match m.frames[jf]?, inp.frames[f.parentFrame]? with
          | some jframe, some pframe =>
            match m.getFrameId pframe.name ANY with
            | none => .throw m
            | some pf =>
              match m.addFrame { f with
                  placement := jframe.placement * f.placement
                  parentJoint := jframe.parentJoint
                  parentFrame := pf } false with
              | .ok m' _ => .ok m' ()
              | .throw m' => .throw m'
              | .ub => .ub
          | _, _ => .ub
    else
      match inp.frames[f.parentFrame]? with
      | none => .ub
      | some pframe =>
        match m.getFrameId pframe.name ANY with
        | none => .throw m
        | some pf =>
          match m.addFrame { f with parentJoint := m.getJointId sname, parentFrame := pf } false with
          | .ok m' _ => .ok m' ()
          | .throw m' => .throw m'
          | .ub => .ub

/-- Frames up to the one named as the joint to lock, `algorithm/model.hxx:591-629`. The iterator is an index `fi`; moving
past the last frame is undefined behaviour. `fuel` bounds the number of iterations. -/
def copyUpTo (inp : Model K P) (lock : List ℕ) (name : String) : (fuel fi : ℕ) → Model K P → Res (Model K P × ℕ) Unit
  | 0, _, _ => .ub
  | fuel + 1, fi, m =>
    match inp.frames[fi]? with
    | none => .ub
    | some f =>
      if f.name == name then .ok (m, fi) ()
      else
        match inp.frames[fi + 1]? with
        | none => .ub
        | some g =>
          if g.name == name then .ok (m, fi + 1) ()
          else
            match copyFrame inp lock m g with
            | .ok m' _ => copyUpTo inp lock name fuel (fi + 1) m'
            | .throw m' => .throw (m', fi + 1)
            | .ub => .ub

/-- What the loop needs to know about the parent: its index in the reduced model, the placement of the old parent in it and
the frame that replaces it (`algorithm/model.hxx:570-585`). `none`: out of range read; `some none`: exception. -/
def reducedParent (m : Model K P) (pname : String) : Option (Option (ℕ × SE3 K × ℕ)) :=
  if m.existJointName pname then some (some (m.getJointId pname, 1, 0))
  else
    match m.getFrameId pname ANY with
    | none => some none
    | some f =>
      match m.frames[f]? with
      | none => none
      | some fr => some (some (fr.parentJoint, fr.placement, f))

/-- state of the loop over the joints: the reduced model, the frame iterator and the position in the list of joints to lock -/
structure RState (K P : Type*) where
  m : Model K P
  fi : ℕ
  cur : ℕ

/-- a joint that is locked, `algorithm/model.hxx:587-647`; `p` is the result of `reducedParent` -/
def lockJoint (inp : Model K (Joint K)) (lock : List ℕ) (qref : List K) (s : RState K (Joint K)) (j : ℕ)
    (name : String) (e : JEntry (Joint K)) (p : ℕ × SE3 K × ℕ) : Res (RState K (Joint K)) Unit :=
  match copyUpTo inp lock name (inp.frames.length + 1) s.fi s.m with
  | .throw r => .throw { s with m := r.1, fi := r.2 }
  | .ub => .ub
  | .ok (m, fi) _ =>
    let liMi := p.2.1 * inp.jointPlacements.getD j 1 * e.desc.payload.M (seg (fun k => qref.getD k 0) e.idx_q)
    match m.addFrame ⟨name, p.1, p.2.2, liMi, FIXED_JOINT, inp.inertias.getD j 0⟩ with
    | .throw m' => .throw { s with m := m', fi := fi }
    | .ub => .ub
    | .ok m' id =>
      .ok ⟨{ m' with frames := m'.frames.modify id (fun f => { f with parentFrame := id }) }, fi, s.cur + 1⟩ ()

/-- the joint as it is given to `addJoint`: for a mimic joint the indexes of the mimicked joint are looked up in the
reduced model, `algorithm/model.hxx:651-661`; `none` when it is not there (read past the end of `idx_qs`) -/
def keptDesc (inp m : Model K (Joint K)) (e : JEntry (Joint K)) : Option (JDesc (Joint K)) :=
  match e.desc.mimic with
  | none => some e.desc
  | some (mid, _, _) =>
    let id := m.getJointId (inp.names.getD mid "")
    match m.idx_qs[id]?, m.idx_vs[id]? with
    | some q, some v => some { e.desc with mimic := some (id, q, v) }
    | _, _ => none

/-- a joint that is kept, `algorithm/model.hxx:648-695` -/
def keepJoint (inp : Model K (Joint K)) (s : RState K (Joint K)) (j : ℕ) (name : String) (e : JEntry (Joint K))
    (p : ℕ × SE3 K × ℕ) : Res (RState K (Joint K)) Unit :=
  match keptDesc inp s.m e with
  | none => .ub
  | some desc =>
    match s.m.addJoint ⟨p.1, desc, p.2.1 * inp.jointPlacements.getD j 1, name, selV e inp.effortLimit,
        selV e inp.velocityLimit, selQ e inp.lowerPositionLimit, selQ e inp.upperPositionLimit, selV e inp.friction,
        selV e inp.damping⟩ with
    | .throw m => .throw { s with m := m }
    | .ub => .ub
    | .ok m id =>
      match m.appendBodyToJoint id (inp.inertias.getD j 0) 1 with
      | .throw m => .throw { s with m := m }
      | .ub => .ub
      | .ok m _ =>
        match m.joints[id]? with
        | none => .ub
        | some out =>
          .ok { s with m := { m with
            rotorInertia := setSeg m.rotorInertia out.idx_v (selV e inp.rotorInertia)
            rotorGearRatio := setSeg m.rotorGearRatio out.idx_v (selV e inp.rotorGearRatio) } } ()

/-- one iteration of the loop over the joints, `algorithm/model.hxx:559-696` -/
def reduceStep (inp : Model K (Joint K)) (lock : List ℕ) (qref : List K) (s : RState K (Joint K)) (j : ℕ) :
    Res (RState K (Joint K)) Unit :=
  let toLock := lock.getD s.cur 0
  match inp.names[j]?, inp.joints[j]? with
  | some name, some e =>
    match reducedParent s.m (inp.names.getD (inp.parents.getD j 0) "") with
    | none => .ub
    | some none => .throw s
    | some (some p) => if j = toLock then lockJoint inp lock qref s j name e p else keepJoint inp s j name e p
  | _, _ => .ub

/-- the loop over the joints -/
def reduceLoop (inp : Model K (Joint K)) (lock : List ℕ) (qref : List K) :
    List ℕ → RState K (Joint K) → Res (RState K (Joint K)) Unit
  | [], s => .ok s ()
  | j :: l, s =>
    match reduceStep inp lock qref s j with
    | .ok s' _ => reduceLoop inp lock qref l s'
    | .throw s' => .throw s'
    | .ub => .ub

/-- the frames that are left, `algorithm/model.hxx:724-760` -/
def copyRest (inp : Model K P) (lock : List ℕ) : List (Frame K) → Model K P → Res (Model K P) Unit
  | [], m => .ok m ()
  | f :: l, m =>
    match copyFrame inp lock m f with
    | .ok m' _ => copyRest inp lock l m'
    | .throw m' => .throw m'
    | .ub => .ub

/-- the output model when the loop starts: `ModelTpl()` with the universe of the input, `algorithm/model.hxx:548-552`
(the input of the convenience overload `algorithm/model.hpp:131-145` is a fresh model) -/
def reduceInit (inp : Model K P) (p0 : P) : Model K P :=
  { empty p0 with
    names := (empty (K := K) p0).names.set 0 (inp.names.getD 0 "")
    joints := (empty (K := K) p0).joints.set 0 (inp.joints.getD 0 ⟨⟨p0, 0, 0, 0, none⟩, 0, 0, 0, 0⟩)
    jointPlacements := (empty (K := K) p0).jointPlacements.set 0 (inp.jointPlacements.getD 0 1)
    parents := (empty (K := K) p0).parents.set 0 (inp.parents.getD 0 0)
    inertias := (empty (K := K) p0).inertias.set 0 (inp.inertias.getD 0 0) }

/-- `buildReducedModel(input_model, list_of_joints_to_lock, reference_configuration)`, `algorithm/model.hxx:502-761`. `p0` is
the default joint of a fresh model. -/
def buildReducedModel (inp : Model K (Joint K)) (p0 : Joint K) (lock : List ℕ) (qref : List K) :
    Res (Model K (Joint K)) Unit :=
  let m0 := reduceInit inp p0
  if qref.length ≠ inp.nq then .throw m0
  else if ¬ lock.length ≤ inp.njoints then .throw m0
  else
    let sorted := lock.insertionSort (· ≤ ·)
    if ¬ sorted.IsChain (· < ·) then .throw m0
    else
      match reduceLoop inp sorted qref (List.range' 1 (inp.njoints - 1)) ⟨m0, 0, 0⟩ with
      | .throw s => .throw s.m
      | .ub => .ub
      | .ok s _ => copyRest inp sorted (inp.frames.drop s.fi) s.m

end
end Model
end Pin
