import Verif.Model.Append
import Verif.Math.Quaternion

/-!
# `urdf::buildModel`

Model of `src/parsers/urdf/model.cpp`, `src/parsers/urdf/utils.cpp` and `include/pinocchio/parsers/urdf/model.hxx`: from the
tree of links and joints read by the library `urdfdom` to a `Model`.

Simplified: reading the XML file is not modelled, the tree is the input; the messages (`verbose`) are left out; the scalars
are exact, so the conversions between `double` and the scalar type of the model are the identity, and infinity is an element
`inf` of the field.
-/

namespace Pin
variable {K P : Type*}

/-! ## what `urdfdom` gives -/

/-- `urdf::Joint::type` -/
inductive UType where
  | unknown | revolute | continuous | prismatic | floating | planar | fixed
deriving DecidableEq

/-- `urdf::Pose` -/
structure UPose (K : Type*) where
  position : V3 K
  rotation : Quat K

/-- `urdf::JointLimits` -/
structure ULimits (K : Type*) where
  lower : K
  upper : K
  effort : K
  velocity : K

/-- `urdf::Joint`; `dynamics` is `(friction, damping)`, `mimic` is `(joint_name, multiplier, offset)` -/
structure UJoint (K : Type*) where
  name : String
  type : UType
  origin : UPose K
  axis : V3 K
  limits : Option (ULimits K)
  dynamics : Option (K × K)
  mimic : Option (String × K × K)

/-- `urdf::Inertial` -/
structure UInertial (K : Type*) where
  origin : UPose K
  mass : K
  ixx : K
  ixy : K
  ixz : K
  iyy : K
  iyz : K
  izz : K

/-- `urdf::Link`: name, inertial element if any, and the children (`child_links`, each with its `parent_joint`) -/
inductive ULink (K : Type*) where
  | node (name : String) (inertial : Option (UInertial K)) (children : List (UJoint K × ULink K))

namespace ULink

/-- name of the link -/
def name : ULink K → String
  | .node n _ _ => n

/-- inertial element of the link -/
def inertial : ULink K → Option (UInertial K)
  | .node _ Y _ => Y

/-- children of the link -/
def children : ULink K → List (UJoint K × ULink K)
  | .node _ _ l => l

end ULink

/-- The joint types of a `JointCollection` that the parser uses, and their parameters. `rev`, `cont`, `pris` are
`JointModelR{X,Y,Z}`, `JointModelRUB{X,Y,Z}`, `JointModelP{X,Y,Z}`; `revU` … the types with an axis, `revU0` and `prisU0` what
their default constructors make; `mimic j s o` is `JointModelMimic` on the joint `j`. -/
structure JColl (K P : Type*) where
  floating : P
  planar : P
  rev : Fin 3 → P
  cont : Fin 3 → P
  pris : Fin 3 → P
  revU : V3 K → P
  contU : V3 K → P
  prisU : V3 K → P
  revU0 : P
  prisU0 : P
  mimic : P → K → K → P
  /-- `axis.normalized()` (Eigen) -/
  normalized : V3 K → V3 K
  /-- `std::numeric_limits<Scalar>::infinity()` -/
  inf : K
  /-- `std::numeric_limits<Scalar>::max()` -/
  max : K

section conv
variable [Field K]

/-- `convertFromUrdf(Pose)`, `src/parsers/urdf/utils.cpp:10-15` -/
def UPose.conv (M : UPose K) : SE3 K := ⟨M.rotation.toMat, M.position⟩

/-- the matrix given to a `Symmetric3` (`spatial/symmetric3.hpp:43-52`): its lower part is read -/
def Sym3.ofMat (A : M3 K) : Sym3 K := ⟨A.m00, A.m10, A.m11, A.m20, A.m21, A.m22⟩

/-- `convertFromUrdf(Inertial)`, `src/parsers/urdf/model.cpp:30-42` -/
def UInertial.conv (Y : UInertial K) : Inertia K :=
  let R := Y.origin.rotation.toMat
  ⟨Y.mass, Y.origin.position,
    .ofMat (R * ⟨Y.ixx, Y.ixy, Y.ixz, Y.ixy, Y.iyy, Y.iyz, Y.ixz, Y.iyz, Y.izz⟩ * R.tr)⟩

/-- `convertFromUrdf(InertialSharedPtr)`, `src/parsers/urdf/model.cpp:44-49` -/
def convInertial (Y : Option (UInertial K)) : Inertia K :=
  match Y with
  | some Y => Y.conv
  | none => 0

end conv

/-- `UrdfVisitor::CartesianAxis`, `parsers/urdf/model.hxx:549-555`: `none` is `AXIS_UNALIGNED` -/
abbrev CartAxis := Option (Fin 3)

section axes
variable [Field K] [LinearOrder K]

/-- `axis.isApprox(unit)` (Eigen): `‖a - b‖² ≤ (10⁻¹²)² min(‖a‖², ‖b‖²)` -/
def V3.isApprox (a b : V3 K) : Bool :=
  (a - b).dot (a - b) ≤ (1 / 10 ^ 12) * (1 / 10 ^ 12) * min (a.dot a) (b.dot b)

/-- `extractCartesianAxis`, `parsers/urdf/model.hxx:564-574` -/
def extractCartesianAxis (axis : V3 K) : CartAxis :=
  if axis.isApprox ⟨1, 0, 0⟩ then some 0
  else if axis.isApprox ⟨0, 1, 0⟩ then some 1
  else if axis.isApprox ⟨0, 0, 1⟩ then some 2
  else none

/-- The joint made by `UrdfVisitor::addJoint<TypeX, TypeY, TypeZ, TypeUnaligned>`, `parsers/urdf/model.hxx:437-480` -/
def alignedOr (C : JColl K P) (al : Fin 3 → P) (un : V3 K → P) (axis : V3 K) : P :=
  match extractCartesianAxis axis with
  | some i => al i
  | none => un (C.normalized axis)

/-- The joint mimicking made by `UrdfVisitor::addMimicJoint<…>`, `parsers/urdf/model.hxx:482-543`: with an axis which is not one
of the three, the joint is default-constructed -/
def alignedOr0 (al : Fin 3 → P) (un : P) (axis : V3 K) : P :=
  match extractCartesianAxis axis with
  | some i => al i
  | none => un

end axes

namespace Model
section build
variable [Field K] [LinearOrder K] [HasEps K]

/-- `UrdfVisitor::getBodyId`, `parsers/urdf/model.hxx:376-387`: `none` when it throws -/
def urdfBodyId (m : Model K P) (name : String) : Option ℕ :=
  if m.existFrame name BODY then m.getFrameId name BODY else none

/-- `UrdfVisitor::appendBodyToJoint`, `parsers/urdf/model.hxx:351-374` -/
def urdfAppendBody (m : Model K P) (fid : ℕ) (Y : Inertia K) (placement : SE3 K) (body : String) : Res (Model K P) Unit :=
  match m.frames[fid]? with
  | none => .ub
  | some frame =>
    let p := frame.placement * placement
    (if Y ≠ 0 then m.appendBodyToJoint frame.parentJoint Y p else .ok m ()).bind fun m _ =>
    (m.addBodyFrame body frame.parentJoint p (some fid)).bind fun m _ => .ok m ()

/-- `model.addJoint`, `addJointFrame`, `appendBodyToJoint`: the end of `UrdfVisitor::addJointAndBody`,
`parsers/urdf/model.hxx:330-331` -/
def urdfAddJoint (m : Model K P) (a : JointArgs K P) (parentFrameId : ℕ) (Y : Inertia K) (body : String) :
    Res (Model K P) Unit :=
  (m.addJoint a).bind fun m id =>
  (m.addJointFrame id (some parentFrameId)).bind fun m fid =>
  m.urdfAppendBody fid Y 1 body

/-- `UrdfVisitor::addFixedJointAndBody`, `parsers/urdf/model.hxx:334-349` -/
def urdfAddFixed (m : Model K P) (parentFrameId : ℕ) (jpl : SE3 K) (joint : String) (Y : Inertia K) (body : String) :
    Res (Model K P) Unit :=
  match m.frames[parentFrameId]? with
  | none => .ub
  | some pf =>
    let placement := pf.placement * jpl
    (m.addFrame ⟨joint, pf.parentJoint, parentFrameId, placement, FIXED_JOINT, Y⟩).bind fun m fid =>
    (m.addBodyFrame body pf.parentJoint placement (some fid)).bind fun m _ => .ok m ()

/-- what the parser gives to `addJoint` for a joint which is not a mimic joint -/
structure UArgs (K P : Type*) where
  payload : P
  nq : ℕ
  nv : ℕ
  effort : List K
  velocity : List K
  lower : List K
  upper : List K
  friction : List K
  damping : List K

/-- The cases of `parseTree`, `src/parsers/urdf/model.cpp:96-272`, for the joints which are neither fixed nor mimic joints, with
the joint types of `parsers/urdf/model.hxx:252-296`; `none`: not supported; `some none`: the limits are missing (the assertion
is compiled out), uninitialised values are used -/
def urdfArgs (C : JColl K P) (j : UJoint K) : Option (Option (UArgs K P)) :=
  let fd := j.dynamics.getD (0, 0)
  match j.type with
  | .floating => some (some ⟨C.floating, 7, 6, List.replicate 6 C.inf, List.replicate 6 C.inf,
      List.replicate 3 (-C.inf) ++ List.replicate 4 (-(101 / 100)), List.replicate 3 C.inf ++ List.replicate 4 (101 / 100),
      List.replicate 6 0, List.replicate 6 0⟩)
  | .revolute => some (j.limits.map fun l => ⟨alignedOr C C.rev C.revU j.axis, 1, 1, [l.effort], [l.velocity], [l.lower],
      [l.upper], [fd.1], [fd.2]⟩)
  | .continuous => some (some ⟨alignedOr C C.cont C.contU j.axis, 2, 1,
      [match j.limits with | some l => l.effort | none => C.inf], [match j.limits with | some l => l.velocity | none => C.inf],
      [-(101 / 100), -(101 / 100)], [101 / 100, 101 / 100], [fd.1], [fd.2]⟩)
  | .prismatic => some (j.limits.map fun l => ⟨alignedOr C C.pris C.prisU j.axis, 1, 1, [l.effort], [l.velocity], [l.lower],
      [l.upper], [fd.1], [fd.2]⟩)
  | .planar => some (some ⟨C.planar, 4, 3, List.replicate 3 C.inf, List.replicate 3 C.inf,
      List.replicate 2 (-C.inf) ++ List.replicate 2 (-(101 / 100)), List.replicate 2 C.inf ++ List.replicate 2 (101 / 100),
      List.replicate 3 0, List.replicate 3 0⟩)
  | _ => none

/-- `UrdfVisitor::addMimicJoint`, `parsers/urdf/model.hxx:297-327`, `:482-543`, with the constructor of `JointModelMimic`
(`joint/joint-mimic.hpp:597-616`, whose assertions are compiled out): the joint followed is found by its name; `none` when it
is not in the model (exception) -/
def urdfMimicDesc (C : JColl K P) (m : Model K P) (payload : P) (x : String × K × K) : Option (Option (JDesc P)) :=
  if m.existJointName x.1 then
    some ((m.joints[m.getJointId x.1]?).map fun e => ⟨C.mimic payload x.2.1 x.2.2, 0, 0, 1, some (e.id, e.idx_q, e.idx_v)⟩)
  else none

/-- does the parser make a mimic joint of this joint? `src/parsers/urdf/model.cpp:140`, `:213` -/
def urdfIsMimic (mimic : Bool) (j : UJoint K) : Option (String × K × K) :=
  if mimic && (j.type = .revolute || j.type = .prismatic) then j.mimic else none

/-- One link: the body of `parseTree`, `src/parsers/urdf/model.cpp:67-288`, before the loop over the children -/
def urdfLink (C : JColl K P) (mimic : Bool) (parentLink : String) (j : UJoint K) (name : String) (Y : Inertia K)
    (m : Model K P) : Res (Model K P) Unit :=
  match m.urdfBodyId parentLink with
  | none => .throw m
  | some pid =>
    match m.frames[pid]? with
    | none => .ub
    | some frame =>
      if j.type = .fixed then m.urdfAddFixed pid j.origin.conv j.name Y name
      else
        match urdfIsMimic mimic j with
        | some x =>
          match urdfMimicDesc C m (if j.type = .revolute then alignedOr0 C.rev C.revU0 j.axis
              else alignedOr0 C.pris C.prisU0 j.axis) x with
          | none => .throw m
          | some none => .ub
          | some (some d) =>
            m.urdfAddJoint ⟨frame.parentJoint, d, frame.placement * j.origin.conv, j.name, [], [], [], [], [], []⟩ pid Y name
        | none =>
          match urdfArgs C j with
          | none => .throw m
          | some none => .ub
          | some (some a) =>
            m.urdfAddJoint ⟨frame.parentJoint, ⟨a.payload, a.nq, a.nv, a.nv, none⟩, frame.placement * j.origin.conv, j.name,
              a.effort, a.velocity, a.lower, a.upper, a.friction, a.damping⟩ pid Y name

mutual
/-- `parseTree`, `src/parsers/urdf/model.cpp:67-294`: the link `c`, attached by the joint `j` to the link `parent` -/
def parseTree (C : JColl K P) (mimic : Bool) (parent : String) (j : UJoint K) : ULink K → Model K P → Res (Model K P) Unit
  | .node name Y children, m =>
    (urdfLink C mimic parent j name (convInertial Y) m).bind fun m _ => parseChildren C mimic name children m
/-- the loop over the children -/
def parseChildren (C : JColl K P) (mimic : Bool) (name : String) :
    List (UJoint K × ULink K) → Model K P → Res (Model K P) Unit
  | [], m => .ok m ()
  | (j, c) :: l, m => (parseTree C mimic name j c m).bind fun m _ => parseChildren C mimic name l m
end

/-- `addRootJoint`: of `UrdfVisitor` (`parsers/urdf/model.hxx:205-211`), and, with a root joint of a given name, of
`UrdfVisitorWithRootJoint` (`:601-616`; the limits by `multibody/model.hxx:170-210`) -/
def urdfRoot (C : JColl K P) (root : Option (JDesc P × String)) (Y : Inertia K) (body : String) (m : Model K P) :
    Res (Model K P) Unit :=
  match m.frames[0]? with
  | none => .ub
  | some frame =>
    match root with
    | none => (m.addFrame ⟨body, frame.parentJoint, 0, frame.placement, BODY, Y⟩).bind fun m _ => .ok m ()
    | some (d, name) =>
      if m.existJointName name then .throw m
      else
        m.urdfAddJoint ⟨frame.parentJoint, d, 1, name, List.replicate d.nv C.max, List.replicate d.nv C.max,
          List.replicate d.nq (-C.max), List.replicate d.nq C.max, List.replicate d.nv 0, List.replicate d.nv 0⟩ 0 Y body

/-- `urdf::buildModel(urdfTree, [rootJoint, rootJointName,] model, verbose, mimic)`, `parsers/urdf/model.hxx:724-772`, and
`parseRootTree`, `src/parsers/urdf/model.cpp:304-316` -/
def buildUrdf (C : JColl K P) (mimic : Bool) (root : Option (JDesc P × String)) (t : ULink K) (m : Model K P) :
    Res (Model K P) Unit :=
  if root.any (fun r => r.2 = "") then .throw m
  else (urdfRoot C root (convInertial t.inertial) t.name m).bind fun m _ => parseChildren C mimic t.name t.children m

end build
end Model
end Pin
