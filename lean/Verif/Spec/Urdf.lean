import Verif.Model.Urdf
import Verif.Model.Reach

/-!
# Specification: what a URDF tree says, and where a model says it

Nothing here follows the parser: the triples (parent link, joint, child link) of the tree, the meaning of one URDF joint, and the
entries of a model read by name through the public tables.
-/

namespace Pin
variable {K P : Type*}

mutual
/-- the joints of the tree, parents first: (name of the parent link, joint, child link) -/
def ULink.edges : ULink K → List (String × UJoint K × ULink K)
  | .node n _ cs => forestEdges n cs
/-- the joints below the link named `n` whose children are given -/
def forestEdges (n : String) : List (UJoint K × ULink K) → List (String × UJoint K × ULink K)
  | [] => []
  | (j, c) :: l => (n, j, c) :: (c.edges ++ forestEdges n l)
end

/-- all the links of the tree -/
def ULink.links (t : ULink K) : List (ULink K) := t :: t.edges.map (·.2.2)

/-- the joints of the tree -/
def ULink.joints (t : ULink K) : List (UJoint K) := t.edges.map (·.2.1)

/-- The unit vectors along the three axes. -/
def unitAxis [Zero K] [One K] (i : Fin 3) : V3 K := ⟨if i = 0 then 1 else 0, if i = 1 then 1 else 0, if i = 2 then 1 else 0⟩

/-- the vectors differ by at most `10⁻¹²` of the shorter one -/
def V3.Near [Field K] [LinearOrder K] (a b : V3 K) : Prop :=
  let d := a - b
  d.x * d.x + d.y * d.y + d.z * d.z
    ≤ (1 / 10 ^ 12) ^ 2 * min (a.x * a.x + a.y * a.y + a.z * a.z) (b.x * b.x + b.y * b.y + b.z * b.z)

/-- `p` is the joint of a family with the given axis: the joint type dedicated to a coordinate axis when the axis is that one,
the general joint type with the direction of the axis when it is none of them. -/
inductive AxisJoint [Field K] [LinearOrder K] (C : JColl K P) (al : Fin 3 → P) (un : V3 K → P) (axis : V3 K) : P → Prop
  | aligned (i : Fin 3) : axis.Near (unitAxis i) → AxisJoint C al un axis (al i)
  | other : (∀ i, ¬ axis.Near (unitAxis i)) → AxisJoint C al un axis (un (C.normalized axis))

/-- What one movable URDF joint (which mimics no other) says: joint type, sizes and limits. Rotations without end are stored as
a cosine and a sine, and planes and free motions with a cosine and a sine, or a quaternion, at the end: those components are
bounded by 1.01, the translations by infinity. -/
inductive UJoint.Says [Field K] [LinearOrder K] (C : JColl K P) (j : UJoint K) : Model.UArgs K P → Prop
  | revolute {p : P} {l : ULimits K} : j.type = .revolute → j.limits = some l → AxisJoint C C.rev C.revU j.axis p →
      UJoint.Says C j ⟨p, 1, 1, [l.effort], [l.velocity], [l.lower], [l.upper], [(j.dynamics.getD (0, 0)).1],
        [(j.dynamics.getD (0, 0)).2]⟩
  | prismatic {p : P} {l : ULimits K} : j.type = .prismatic → j.limits = some l → AxisJoint C C.pris C.prisU j.axis p →
      UJoint.Says C j ⟨p, 1, 1, [l.effort], [l.velocity], [l.lower], [l.upper], [(j.dynamics.getD (0, 0)).1],
        [(j.dynamics.getD (0, 0)).2]⟩
  | continuous {p : P} : j.type = .continuous → AxisJoint C C.cont C.contU j.axis p →
      UJoint.Says C j ⟨p, 2, 1, [(j.limits.map (·.effort)).getD C.inf], [(j.limits.map (·.velocity)).getD C.inf],
        [-(101 / 100), -(101 / 100)], [101 / 100, 101 / 100], [(j.dynamics.getD (0, 0)).1], [(j.dynamics.getD (0, 0)).2]⟩
  | planar : j.type = .planar →
      UJoint.Says C j ⟨C.planar, 4, 3, [C.inf, C.inf, C.inf], [C.inf, C.inf, C.inf],
        [-C.inf, -C.inf, -(101 / 100), -(101 / 100)], [C.inf, C.inf, 101 / 100, 101 / 100], [0, 0, 0], [0, 0, 0]⟩
  | floating : j.type = .floating →
      UJoint.Says C j ⟨C.floating, 7, 6, [C.inf, C.inf, C.inf, C.inf, C.inf, C.inf], [C.inf, C.inf, C.inf, C.inf, C.inf, C.inf],
        [-C.inf, -C.inf, -C.inf, -(101 / 100), -(101 / 100), -(101 / 100), -(101 / 100)],
        [C.inf, C.inf, C.inf, 101 / 100, 101 / 100, 101 / 100, 101 / 100], [0, 0, 0, 0, 0, 0], [0, 0, 0, 0, 0, 0]⟩

/-- the tag `mimic` of the joint counts: a revolute or prismatic joint, read with the option `mimic` -/
def UJoint.Follows (mimic : Bool) (j : UJoint K) (x : String × K × K) : Prop :=
  mimic = true ∧ (j.type = .revolute ∨ j.type = .prismatic) ∧ j.mimic = some x

namespace Model
section
variable [Zero K] [One K]

/-- `model.frames[model.getFrameId(name, BODY)]`: where the link of that name is -/
def link (m : Model K P) (name : String) : Option (Frame K) := (m.getFrameId name BODY).bind (m.frames[·]?)

end

/-- `n` entries of a table from `i` on -/
def slice (l : List K) (i n : ℕ) : List K := (l.drop i).take n

/-- The entries of joint `i` in the tables of `m`: the joint mimics no other, has the given sizes, type and limits. -/
def HasJoint (m : Model K P) (i : ℕ) (a : UArgs K P) : Prop :=
  ∃ e : JEntry P, m.joints[i]? = some e ∧ e.desc = ⟨a.payload, a.nq, a.nv, a.nv, none⟩ ∧
    slice m.effortLimit e.idx_v a.nv = a.effort ∧ slice m.velocityLimit e.idx_v a.nv = a.velocity ∧
    slice m.lowerPositionLimit e.idx_q a.nq = a.lower ∧ slice m.upperPositionLimit e.idx_q a.nq = a.upper ∧
    slice m.friction e.idx_v a.nv = a.friction ∧ slice m.damping e.idx_v a.nv = a.damping

/-- The entries of a joint `i` which follows the joint named `x.1`, with multiplier `x.2.1` and offset `x.2.2`: no
configuration of its own, the indexes of the joint it follows, and, when its axis is a coordinate axis, the joint type of that
axis. -/
def HasMimic [Field K] [LinearOrder K] (C : JColl K P) (m : Model K P) (i : ℕ) (j : UJoint K) (x : String × K × K) : Prop :=
  ∃ (k : ℕ) (e e' : JEntry P) (p : P), k < i ∧ m.names[k]? = some x.1 ∧ m.joints[k]? = some e' ∧ m.joints[i]? = some e ∧
    e.desc = ⟨C.mimic p x.2.1 x.2.2, 0, 0, 1, some (k, e'.idx_q, e'.idx_v)⟩ ∧ e.idx_q = e'.idx_q ∧ e.idx_v = e'.idx_v ∧
    ∀ a, j.axis.Near (unitAxis a) → p = if j.type = .revolute then C.rev a else C.pris a

/-- What a model must say about one joint `j` of the description, between the links `p` and `c`: a fixed joint puts `c` on the
same joint of the model as `p`, displaced by the origin of `j`; any other joint is a joint of the model with the same name,
attached where `p` is, displaced by the origin, and carries `c`. -/
def EdgeOk [Field K] [LinearOrder K] (C : JColl K P) (mimic : Bool) (m : Model K P) (p : String) (j : UJoint K) (c : String) :
    Prop :=
  ∃ fp fc, m.link p = some fp ∧ m.link c = some fc ∧
    if j.type = .fixed then fc.parentJoint = fp.parentJoint ∧ fc.placement = fp.placement * j.origin.conv
    else fc.placement = 1 ∧ 1 ≤ fc.parentJoint ∧ m.names[fc.parentJoint]? = some j.name ∧
      m.parents[fc.parentJoint]? = some fp.parentJoint ∧
      m.jointPlacements[fc.parentJoint]? = some (fp.placement * j.origin.conv) ∧
      ((∃ x, j.Follows mimic x ∧ HasMimic C m fc.parentJoint j x) ∨
        ((∀ x, ¬ j.Follows mimic x) ∧ ∃ a, j.Says C a ∧ HasJoint m fc.parentJoint a))

/-- No link and no joint of the description has a name already used by a body, or a joint, of the model, or twice in the
description. -/
structure Fresh (m : Model K P) (es : List (String × UJoint K × ULink K)) : Prop where
  links : (es.map (·.2.2.name)).Nodup
  joints : (es.map (·.2.1.name)).Nodup
  link : ∀ x ∈ es, m.existFrame x.2.2.name BODY = false
  joint : ∀ x ∈ es, m.existFrame x.2.1.name (JOINT ||| FIXED_JOINT) = false

section
variable [Field K] [LinearOrder K]

/-- the parser accepts this joint, when the joints of the model have the given names -/
def Supp (C : JColl K P) (mimic : Bool) (names : List String) (j : UJoint K) : Prop :=
  j.type = .fixed ∨ (∃ x, j.Follows mimic x ∧ x.1 ∈ names) ∨ ((∀ x, ¬ j.Follows mimic x) ∧ ∃ a : UArgs K P, j.Says C a)

/-- the parser accepts the joints, read in this order -/
def SuppL (C : JColl K P) (mimic : Bool) : List String → List (String × UJoint K × ULink K) → Prop
  | _, [] => True
  | names, x :: l => Supp C mimic names x.2.1 ∧
      SuppL C mimic (names ++ if x.2.1.type = .fixed then [] else [x.2.1.name]) l

/-- names of the movable joints -/
def movNames (es : List (String × UJoint K × ULink K)) : List String :=
  (es.filter fun x => x.2.1.type ≠ .fixed).map (·.2.1.name)

/-- inertia that a link brings to joint `i` of the model, as a matrix and as a mass -/
def contrib (m : Model K P) (i : ℕ) (l : ULink K) : M6 K :=
  match m.link l.name with
  | some f => if f.parentJoint = i then ((convInertial l.inertial).act f.placement).matrix else 0
  | none => 0
/-- see `contrib` -/
def contribMass (m : Model K P) (i : ℕ) (l : ULink K) : K :=
  match m.link l.name with
  | some f => if f.parentJoint = i then (convInertial l.inertial).mass else 0
  | none => 0

/-- names of the root joint -/
def rootNames (root : Option (JDesc P × String)) : List String := root.toList.map (·.2)

/-- The root link: it is put on the universe, or on the root joint, which is a joint of the model attached to the universe, with
no limits. -/
def RootOk (C : JColl K P) (root : Option (JDesc P × String)) (m : Model K P) (n : String) : Prop :=
  ∃ f, m.link n = some f ∧ f.placement = 1 ∧
    match root with
    | none => f.parentJoint = 0
    | some (d, r) => 1 ≤ f.parentJoint ∧ m.names[f.parentJoint]? = some r ∧ m.parents[f.parentJoint]? = some 0 ∧
        m.jointPlacements[f.parentJoint]? = some 1 ∧
        HasJoint m f.parentJoint ⟨d.payload, d.nq, d.nv, List.replicate d.nv C.max, List.replicate d.nv C.max,
          List.replicate d.nq (-C.max), List.replicate d.nq C.max, List.replicate d.nv 0, List.replicate d.nv 0⟩

/-- No link and no joint (the root joint included) has a name already used by a body, or a joint, of the model, or twice. -/
structure FreshTree (m : Model K P) (root : Option (JDesc P × String)) (t : ULink K) : Prop where
  links : (t.links.map (·.name)).Nodup
  joints : (rootNames root ++ t.joints.map (·.name)).Nodup
  link : ∀ l ∈ t.links, m.existFrame l.name BODY = false
  joint : ∀ n ∈ rootNames root ++ t.joints.map (·.name), m.existFrame n (JOINT ||| FIXED_JOINT) = false

/-- the descriptions the parser accepts: a root joint, if any, with a new and non-empty name, and joints it can read -/
def Accepted (C : JColl K P) (mimic : Bool) (root : Option (JDesc P × String)) (t : ULink K) (m : Model K P) : Prop :=
  (∀ n ∈ rootNames root, n ≠ "" ∧ n ∉ m.names) ∧ SuppL C mimic (m.names ++ rootNames root) t.edges

/-- the root joint mimics no joint -/
def RootPlain (root : Option (JDesc P × String)) : Prop := ∀ r ∈ root, r.1.mimic = none ∧ r.1.nvx = r.1.nv

end
end Model
end Pin
