import Verif.Model.Reduce

/-!
# `transformJointIntoMimic`, `buildMimicModel`

Model of `include/pinocchio/algorithm/model.hxx:861-1014`. The input and the output are distinct models (when they are the
same object the code reads the joint after it has replaced it). The state of the output after an exception is left out.
Writing one joint's segment of a parameter vector is total: it is in range for every model built by the construction calls.
-/

namespace Pin
variable {K P : Type*}

namespace Model

/-- `details::insertSort`, `algorithm/model.hxx:280-285`: insertion at `std::lower_bound`, for a container in which the values
less than `x` come first (`mimicked_joints` need not be sorted; where `x` goes in it is then not specified by the standard
library). -/
def insertSort (x : ℕ) (l : List ℕ) : List ℕ := l.takeWhile (· < x) ++ x :: l.dropWhile (· < x)

/-- `v.resize(n)` of an Eigen vector: the contents are lost (here all `junk`) unless the size is the same -/
def resizeLost (junk : K) (l : List K) (n : ℕ) : List K := if l.length = n then l else List.replicate n junk

/-- the copies of the parameters of one joint, `algorithm/model.hxx:909-928` and again `model.hxx:960-979`; `ei` is the joint of
the input, `eo` the one of the output -/
def copyParams (inp : Model K P) (ei eo : JEntry P) (m : Model K P) : Model K P :=
  { m with
    effortLimit := setSeg m.effortLimit eo.idx_v (selV ei inp.effortLimit)
    velocityLimit := setSeg m.velocityLimit eo.idx_v (selV ei inp.velocityLimit)
    lowerPositionLimit := setSeg m.lowerPositionLimit eo.idx_q (selQ ei inp.lowerPositionLimit)
    upperPositionLimit := setSeg m.upperPositionLimit eo.idx_q (selQ ei inp.upperPositionLimit)
    armature := setSeg m.armature eo.idx_v (selV ei inp.armature)
    rotorInertia := setSeg m.rotorInertia eo.idx_v (selV ei inp.rotorInertia)
    rotorGearRatio := setSeg m.rotorGearRatio eo.idx_v (selV ei inp.rotorGearRatio)
    friction := setSeg m.friction eo.idx_v (selV ei inp.friction)
    damping := setSeg m.damping eo.idx_v (selV ei inp.damping) }

/-- one iteration of the first loop, `algorithm/model.hxx:905-929` -/
def mimicBefore (inp : Model K P) (m : Model K P) (k : ℕ) : Model K P :=
  match inp.joints[k]?, m.joints[k]? with
  | some ei, some eo => copyParams inp ei eo m
  | _, _ => m

/-- a mimic joint behind the new one: the indexes of the joint it follows are read again, `algorithm/model.hxx:940-951`, and
`setMimicIndexes`, `joint/joint-mimic.hpp:665-674`. `none`: read past the end of `idx_qs`. -/
def refollow (m : Model K P) (e : JEntry P) : Option (JEntry P) :=
  match e.desc.mimic with
  | none => some e
  | some (mid, _, _) =>
    match m.idx_qs[mid]?, m.idx_vs[mid]? with
    | some q, some v => some { e with desc := { e.desc with mimic := some (mid, q, v) }, idx_q := q, idx_v := v }
    | _, _ => none

/-- state of the second loop -/
structure MState (K P : Type*) where
  m : Model K P
  q : ℕ
  v : ℕ

/-- one iteration of the second loop, `algorithm/model.hxx:934-981` -/
def mimicAfter (inp : Model K P) (j : ℕ) (s : MState K P) (k : ℕ) : Res Unit (MState K P) :=
  match inp.joints[k]?, s.m.joints[k]? with
  | some ei, some eo =>
    match eo.desc.setIndexes ei.id s.q s.v ei.idx_vx with
    | none => .throw ()
    | some e =>
      match (if k ≠ j then refollow s.m e else some e) with
      | none => .ub
      | some e =>
        let m := { s.m with
          joints := s.m.joints.set k e
          idx_qs := s.m.idx_qs.set k e.idx_q
          nqs := s.m.nqs.set k e.desc.nq
          idx_vs := s.m.idx_vs.set k e.idx_v
          nvs := s.m.nvs.set k e.desc.nv }
        .ok () ⟨if k ≠ j then copyParams inp ei e m else m, s.q + e.desc.nq, s.v + e.desc.nv⟩
  | _, _ => .ub

/-- the second loop -/
def mimicLoop (inp : Model K P) (j : ℕ) : List ℕ → MState K P → Res Unit (MState K P)
  | [], s => .ok () s
  | k :: l, s =>
    match mimicAfter inp j s k with
    | .ok _ s' => mimicLoop inp j l s'
    | .throw _ => .throw ()
    | .ub => .ub

/-- the output before the loops: a copy of the input with the new joint and the vectors resized,
`algorithm/model.hxx:881-902`; `JointModelMimic(mimicking, mimicked, …)` is `joint/joint-mimic.hpp:597-616` -/
def mimicInit (junk : K) (m : Model K P) (ei ej : JEntry P) (j : ℕ) (J : P) : Model K P :=
  let nq := m.nq - ej.desc.nq
  let nv := m.nv - ej.desc.nv
  { m with
    joints := m.joints.set j ⟨⟨J, 0, 0, ej.desc.nvx, some (ei.id, ei.idx_q, ei.idx_v)⟩, 0, ei.idx_q, ei.idx_v, 0⟩
    nq := nq
    nv := nv
    effortLimit := resizeLost junk m.effortLimit nv
    velocityLimit := resizeLost junk m.velocityLimit nv
    lowerPositionLimit := resizeLost junk m.lowerPositionLimit nq
    upperPositionLimit := resizeLost junk m.upperPositionLimit nq
    armature := resizeLost junk m.armature nv
    rotorInertia := resizeLost junk m.rotorInertia nv
    rotorGearRatio := resizeLost junk m.rotorGearRatio nv
    friction := resizeLost junk m.friction nv
    damping := resizeLost junk m.damping nv }

/-- `transformJointIntoMimic(input, i, j, scaling, offset, output)`, `algorithm/model.hxx:861-993`. `mk` builds the mimic joint of
a joint type, with its scaling and offset; it is `none` for the types that `checkMimic` refuses
(`joint/joint-basic-visitors.hxx:964-988`). The joint 0 is default constructed: its id is the largest integer
(`joint/joint-model-base.hpp:593-594`), so that `setIndexes` throws when it is followed. -/
def transformJointIntoMimic (junk : K) (mk : P → Option P) (m : Model K P) (i j : ℕ) : Res Unit (Model K P) :=
  if ¬ i ≤ m.njoints then .throw ()
  else if ¬ j ≤ m.njoints then .throw ()
  else if ¬ i < j then .throw ()
  else
    match m.joints[i]?, m.joints[j]? with
    | some ei, some ej =>
      match mk ej.desc.payload with
      | none => .throw ()
      | some J =>
        if i = 0 then .throw ()
        else
          let out := (List.range' 1 (j - 1)).foldl (mimicBefore m) (mimicInit junk m ei ej j J)
          match mimicLoop m j (List.range' j (m.njoints - j)) ⟨out, out.idx_qs.getD j 0, out.idx_vs.getD j 0⟩ with
          | .throw _ => .throw ()
          | .ub => .ub
          | .ok _ s =>
            .ok () { s.m with
              mimicSupports := (m.subtrees.getD j []).foldl (fun l k => l.modify k (insertSort j)) s.m.mimicSupports
              mimicking := insertSort j s.m.mimicking
              mimicked := insertSort i s.m.mimicked }
    | _, _ => .ub

/-- the loop of `buildMimicModel` -/
def mimicEach (junk : K) (mk : K → K → P → Option P) (m : Model K P) : List (ℕ × ℕ × K × K) → Model K P → Res Unit (Model K P)
  | [], out => .ok () out
  | (i, j, r, o) :: l, _ =>
    match transformJointIntoMimic junk (mk r o) m i j with
    | .ok _ m' => mimicEach junk mk m' l m'
    | .throw _ => .throw ()
    | .ub => .ub

/-- `buildMimicModel(input, index_mimicked, index_mimicking, scaling, offset, output)`, `algorithm/model.hxx:995-1014`, for
vectors of the same length; `out` is the output before the call. -/
def buildMimicModel (junk : K) (mk : K → K → P → Option P) (m : Model K P) (l : List (ℕ × ℕ × K × K)) (out : Model K P) :
    Res Unit (Model K P) := mimicEach junk mk m l out

end Model
end Pin
