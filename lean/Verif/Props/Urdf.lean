import Verif.Model.UrdfStep
import Verif.Model.ToSys
import Verif.Joint.Defs
import Verif.Props.Quaternion
import Verif.Algo.Examples

/-!
# C64: the model read from a URDF description is the one described

`Spec/Urdf.lean` says what a description says. The theorems hold for every description, starting from any model (the parser
can be given a model which is not empty) in which the names of the description are new.
-/

set_option linter.unusedSectionVars false
set_option linter.unusedSimpArgs false

namespace Pin
namespace Model
variable {K P : Type*} [Field K] [LinearOrder K] [HasEps K] [IsStrictOrderedRing K]

/-! ## the tree -/

/-- The description is accepted exactly when the root joint (if any) has a new, non-empty name and every joint is one the
parser can read: fixed; or a revolute or prismatic joint which follows a joint read before it; or a revolute or prismatic joint
with limits, or a continuous, planar or floating joint. -/
theorem C64_accepts {p0 : P} (C : JColl K P) (mimic : Bool) {root : Option (JDesc P × String)} (hp : RootPlain root) {m : Model K P}
    (hr : Reach p0 m) {t : ULink K} (hf : FreshTree m root t) :
    (∃ m', buildUrdf C mimic root t m = .ok m' ()) ↔ Accepted C mimic root t m := by
  rcases build_cases C mimic hp hr hf with ⟨h, m', h', -⟩ | ⟨h, h'⟩
  · exact ⟨fun _ => h, fun _ => ⟨m', h'⟩⟩
  · exact ⟨fun ⟨m', hm⟩ => absurd hm (h' m'), fun hh => absurd hh h⟩

/-- The model says of every joint of the description what the description says (`EdgeOk`), and the root link is where it must
be (`RootOk`); the joints of the model are those it had, the root joint, and the movable joints of the description, parents
first; and the model is one that calls to `addJoint`, `addFrame` and `appendBodyToJoint` can make. -/
theorem C64_tree {p0 : P} (C : JColl K P) (mimic : Bool) {root : Option (JDesc P × String)} (hp : RootPlain root) {m m' : Model K P}
    (hr : Reach p0 m) {t : ULink K} (hf : FreshTree m root t) (h : buildUrdf C mimic root t m = .ok m' ()) :
    RootOk C root m' t.name ∧ (∀ x ∈ t.edges, EdgeOk C mimic m' x.1 x.2.1 x.2.2.name) ∧
      m'.names = m.names ++ rootNames root ++ (t.edges.filter fun x => x.2.1.type ≠ .fixed).map (·.2.1.name) ∧ Reach p0 m' := by
  rcases build_cases C mimic hp hr hf with ⟨-, m1, h1, hb⟩ | ⟨-, h1⟩
  · rw [h] at h1; cases h1
    exact ⟨hb.rootOk, hb.edges, hb.names, hb.reach p0 hr⟩
  · exact absurd h (h1 m')

/-- The inertia of every joint of the model is what it was, plus that of the links of the description on it, displaced to their
places on the joint: no link is lost or counted twice. -/
theorem C64_inertia {p0 : P} (C : JColl K P) (mimic : Bool) {root : Option (JDesc P × String)} (hp : RootPlain root) {m m' : Model K P}
    (hr : Reach p0 m) {t : ULink K} (hf : FreshTree m root t) (h : buildUrdf C mimic root t m = .ok m' ())
    (hY : ∀ l ∈ t.links, MassFine (convInertial l.inertial).mass) {i : ℕ} (hi : MassFine (m.inertias.getD i 0).mass) :
    (m'.inertias.getD i 0).matrix = (m.inertias.getD i 0).matrix + (t.links.map fun l => contrib m' i l).sum ∧
    (m'.inertias.getD i 0).mass = (m.inertias.getD i 0).mass + (t.links.map fun l => contribMass m' i l).sum := by
  rcases build_cases C mimic hp hr hf with ⟨-, m1, h1, hb⟩ | ⟨-, h1⟩
  · rw [h] at h1; cases h1
    have := hb.inertia hY i hi
    exact ⟨this.1, this.2.1⟩
  · exact absurd h (h1 m')

/-- What a model had is kept: names, parents, placements, joints, frames and limits are extended at the end. -/
theorem C64_keeps {p0 : P} (C : JColl K P) (mimic : Bool) {root : Option (JDesc P × String)} (hp : RootPlain root) {m m' : Model K P}
    (hr : Reach p0 m) {t : ULink K} (hf : FreshTree m root t) (h : buildUrdf C mimic root t m = .ok m' ()) :
    m.names <+: m'.names ∧ m.parents <+: m'.parents ∧ m.jointPlacements <+: m'.jointPlacements ∧ m.joints <+: m'.joints ∧
      m.frames <+: m'.frames ∧ m.lowerPositionLimit <+: m'.lowerPositionLimit ∧ m.upperPositionLimit <+: m'.upperPositionLimit ∧
      m.effortLimit <+: m'.effortLimit ∧ m.velocityLimit <+: m'.velocityLimit := by
  rcases build_cases C mimic hp hr hf with ⟨-, m1, h1, hb⟩ | ⟨-, h1⟩
  · rw [h] at h1; cases h1
    have := hb.ext
    exact ⟨this.names, this.parents, this.jointPlacements, this.joints, this.frames, this.lowerPositionLimit,
      this.upperPositionLimit, this.effortLimit, this.velocityLimit⟩
  · exact absurd h (h1 m')

omit [LinearOrder K] [HasEps K] [IsStrictOrderedRing K] in
/-- The displacement read from an origin: its position, and the rotation of its quaternion `(u, w)`, which sends `x` to
`x + 2 w u × x + 2 u × (u × x)`. -/
theorem C64_origin (M : UPose K) : M.conv.trans = M.position ∧
    ∀ x, let u : V3 K := ⟨M.rotation.x, M.rotation.y, M.rotation.z⟩
      M.conv.rot.mulVec x = x + (2 * M.rotation.w) • u.cross x + (2 : K) • u.cross (u.cross x) := by
  refine ⟨rfl, fun x => ?_⟩
  unfold UPose.conv Quat.toMat quatMat
  ext <;> simp [M3.mulVec, V3.cross] <;> ring

omit [LinearOrder K] [HasEps K] [IsStrictOrderedRing K] in
/-- The inertia of a link is the one described at the centre of mass, in the axes of the inertial element, displaced by the origin
of that element (whose quaternion has norm one). -/
theorem C64_inertial (Y : UInertial K) (h : (Y.origin.conv).rot.IsRot) :
    (convInertial (some Y)).mass = Y.mass ∧ (convInertial (some Y)).lever = Y.origin.position ∧
    (convInertial (some Y)).rotI.matrix =
      Y.origin.conv.rot * ⟨Y.ixx, Y.ixy, Y.ixz, Y.ixy, Y.iyy, Y.iyz, Y.ixz, Y.iyz, Y.izz⟩ * Y.origin.conv.rot.tr ∧
    convInertial (some Y) = Inertia.act Y.origin.conv ⟨Y.mass, 0, ⟨Y.ixx, Y.ixy, Y.iyy, Y.ixz, Y.iyz, Y.izz⟩⟩ := by
  have h1 : (convInertial (some Y)).rotI.matrix =
      Y.origin.conv.rot * ⟨Y.ixx, Y.ixy, Y.ixz, Y.ixy, Y.iyy, Y.iyz, Y.ixz, Y.iyz, Y.izz⟩ * Y.origin.conv.rot.tr := by
    unfold convInertial UInertial.conv UPose.conv Sym3.ofMat Sym3.matrix
    ext <;> simp <;> ring
  refine ⟨rfl, rfl, h1, ?_⟩
  have h2 := Sym3.rotate_matrix (⟨Y.ixx, Y.ixy, Y.iyy, Y.ixz, Y.iyz, Y.izz⟩ : Sym3 K) h
  have h3 : (convInertial (some Y)).rotI = (⟨Y.ixx, Y.ixy, Y.iyy, Y.ixz, Y.iyz, Y.izz⟩ : Sym3 K).rotate Y.origin.conv.rot := by
    have h4 : (convInertial (some Y)).rotI.matrix = ((⟨Y.ixx, Y.ixy, Y.iyy, Y.ixz, Y.iyz, Y.izz⟩ : Sym3 K).rotate Y.origin.conv.rot).matrix := by
      rw [h1, h2]; rfl
    simp only [Sym3.matrix, M3.mk.injEq] at h4
    ext
    · exact h4.1
    · exact h4.2.1
    · exact h4.2.2.2.2.1
    · exact h4.2.2.1
    · exact h4.2.2.2.2.2.1
    · exact h4.2.2.2.2.2.2.2.2
  unfold Inertia.act
  dsimp only
  rw [← h3]
  unfold convInertial UInertial.conv UPose.conv
  dsimp only
  congr 1
  ext <;> simp

end Model

/-! ## positions -/

section kinematics
variable {K : Type*} [Field K] [LinearOrder K] [HasEps K] [IsStrictOrderedRing K] [Trig K]

/-- The joint types of `JointCollectionDefault` that the parser uses; the default constructors of the types with an axis take
the first one (`joint-revolute-unaligned.hpp:626-629`, `joint-prismatic-unaligned.hpp:601-604`). -/
def urdfColl (normalized : V3 K → V3 K) (inf max : K) : JColl K (Joint K) where
  floating := jFreeFlyer
  planar := jPlanar
  rev a := jRevolute a
  cont := jRUB
  pris := jPrismatic
  revU u := jRevoluteUnaligned u
  contU := jRUBUnaligned
  prisU := jPrismaticUnaligned
  revU0 := jRevoluteUnaligned ⟨1, 0, 0⟩
  prisU0 := jPrismaticUnaligned ⟨1, 0, 0⟩
  mimic J s o := jMimic J (J.S fun _ => 0) linearAffine s o
  normalized := normalized
  inf := inf
  max := max

/-- Specification: the rotation about the unit vector `u` by an angle of cosine `c` and sine `s` -/
def IsTurn (R : M3 K) (u : V3 K) (c s : K) : Prop := ∀ x, R.mulVec x = c • x + s • u.cross x + ((1 - c) * u.dot x) • u

/-- Specification: the unit vector a joint moves along or about -/
inductive UJoint.Dir (normalized : V3 K → V3 K) (j : UJoint K) : V3 K → Prop
  | aligned (i : Fin 3) : j.axis.Near (unitAxis i) → UJoint.Dir normalized j (unitAxis i)
  | other : (∀ i, ¬ j.axis.Near (unitAxis i)) → UJoint.Dir normalized j (normalized j.axis)

/-- Specification: the displacement `X` that a URDF joint with direction `u` makes when its coordinates are `q`. -/
def UJoint.Moves (j : UJoint K) (u : V3 K) (q : ℕ → K) (X : SE3 K) : Prop :=
  match j.type with
  | .revolute => X.trans = 0 ∧ IsTurn X.rot u (Trig.cos (q 0)) (Trig.sin (q 0))
  | .continuous => X.trans = 0 ∧ IsTurn X.rot u (q 0) (q 1)
  | .prismatic => X.trans = q 0 • u ∧ X.rot = 1
  | .planar => X.trans = ⟨q 0, q 1, 0⟩ ∧ IsTurn X.rot ⟨0, 0, 1⟩ (q 2) (q 3)
  | .floating => X.trans = ⟨q 0, q 1, q 2⟩ ∧ X.rot = (⟨q 3, q 4, q 5, q 6⟩ : Quat K).toMat
  | _ => False

omit [LinearOrder K] [HasEps K] [IsStrictOrderedRing K] [Trig K] in
theorem isTurn_axis (a : Fin 3) (s c : K) : IsTurn (rotAxis a s c) (unitAxis a) c s := by
  intro x
  match a with
  | 0 | 1 | 2 => ext <;> simp [rotAxis, unitAxis, M3.mulVec, V3.cross, V3.dot] <;> ring

omit [LinearOrder K] [HasEps K] [IsStrictOrderedRing K] [Trig K] in
theorem isTurn_matrix (u : V3 K) (c s : K) : IsTurn (toRotationMatrix u c s) u c s := by
  intro x
  ext <;> simp [toRotationMatrix, M3.mulVec, V3.cross, V3.dot] <;> ring

omit [LinearOrder K] [HasEps K] [IsStrictOrderedRing K] [Trig K] in
theorem axis_unitAxis (a : Fin 3) : (V3.axis a : V3 K) = unitAxis a := by
  match a with
  | 0 | 1 | 2 => rfl

omit [HasEps K] [IsStrictOrderedRing K] in
theorem says_moves {nrm : V3 K → V3 K} {inf max : K} {j : UJoint K} {a : Model.UArgs K (Joint K)}
    (h : j.Says (urdfColl nrm inf max) a) (q : ℕ → K) : ∃ u, j.Dir nrm u ∧ j.Moves u q (a.payload.M q) := by
  have other : ∃ u, j.Dir nrm u := by
    by_cases hn : ∃ i, j.axis.Near (unitAxis i)
    · obtain ⟨i, hi⟩ := hn; exact ⟨_, .aligned i hi⟩
    · exact ⟨_, .other (by simpa using hn)⟩
  cases h with
  | revolute ht hl ha =>
    cases ha with
    | aligned i hi => exact ⟨_, .aligned i hi, by rw [UJoint.Moves, ht]; exact ⟨rfl, isTurn_axis i _ _⟩⟩
    | other hn => exact ⟨_, .other hn, by rw [UJoint.Moves, ht]; exact ⟨rfl, isTurn_matrix _ _ _⟩⟩
  | prismatic ht hl ha =>
    cases ha with
    | aligned i hi =>
      refine ⟨_, .aligned i hi, ?_⟩
      rw [UJoint.Moves, ht, ← axis_unitAxis]; exact ⟨rfl, rfl⟩
    | other hn => exact ⟨_, .other hn, by rw [UJoint.Moves, ht]; exact ⟨rfl, rfl⟩⟩
  | continuous ht ha =>
    cases ha with
    | aligned i hi => exact ⟨_, .aligned i hi, by rw [UJoint.Moves, ht]; exact ⟨rfl, isTurn_axis i _ _⟩⟩
    | other hn => exact ⟨_, .other hn, by rw [UJoint.Moves, ht]; exact ⟨rfl, isTurn_matrix _ _ _⟩⟩
  | planar ht =>
    obtain ⟨u, hu⟩ := other
    refine ⟨u, hu, ?_⟩
    rw [UJoint.Moves, ht]
    exact ⟨rfl, isTurn_axis 2 (q 3) (q 2)⟩
  | floating ht =>
    obtain ⟨u, hu⟩ := other
    refine ⟨u, hu, ?_⟩
    rw [UJoint.Moves, ht]
    exact ⟨rfl, rfl⟩

namespace Model

/-- Specification: the pose of the link named `n` in the world -/
def linkPose (m : Model K (Joint K)) (j0 : Joint K) (g : Motion K) (q : ℕ → K) (n : String) : Option (SE3 K) :=
  (m.link n).map fun f => (m.toSys j0 g).oM q f.parentJoint * f.placement

/-- Specification: the coordinates of joint `j` in `q`: the components of `q` from the index of the joint on, or, for a joint
that follows another one, that of the joint followed (which has one coordinate of its own), scaled and shifted. -/
def Coords (mimic : Bool) (m : Model K (Joint K)) (j : UJoint K) (q : ℕ → K) (u : ℕ → K) : Prop :=
  (∃ (x : String × K × K) (k : ℕ) (e : JEntry (Joint K)), j.Follows mimic x ∧ m.names[k]? = some x.1 ∧ m.joints[k]? = some e ∧
    e.desc.mimic = none ∧ e.desc.nq = 1 ∧ u = fun r => x.2.1 * q (e.idx_q + r) + x.2.2) ∨
  ((∀ x, ¬ j.Follows mimic x) ∧ ∃ (i : ℕ) (e : JEntry (Joint K)), m.names[i]? = some j.name ∧ m.joints[i]? = some e ∧
    u = fun r => q (e.idx_q + r))

/-- In every configuration, the pose of each link of the model is the pose of its parent link, displaced by the origin of the
joint between them, then by the motion of the joint (none for a fixed joint). For a joint that follows another one this is shown
when its axis is a coordinate axis and the other joint has one coordinate of its own: see `C64_mimic_axis_counterexample`,
`C64_mimic_chain_counterexample`, `C64_mimic_continuous_counterexample`. -/
theorem C64_kinematics_partial {p0 : Joint K} {nrm : V3 K → V3 K} {inf max : K} (mimic : Bool) {root : Option (JDesc (Joint K) × String)}
    (hp : RootPlain root) {m m' : Model K (Joint K)} (hr : Reach p0 m) {t : ULink K} (hf : FreshTree m root t)
    (h : buildUrdf (urdfColl nrm inf max) mimic root t m = .ok m' ()) (j0 : Joint K) (g : Motion K) (q : ℕ → K) :
    ∀ x ∈ t.edges, ∃ Xp, m'.linkPose j0 g q x.1 = some Xp ∧
      (x.2.1.type = .fixed → m'.linkPose j0 g q x.2.2.name = some (Xp * x.2.1.origin.conv)) ∧
      (x.2.1.type ≠ .fixed → (∀ y, x.2.1.Follows mimic y → (∃ a, x.2.1.axis.Near (unitAxis a)) ∧
          ∀ (k : ℕ) (e : JEntry (Joint K)), m'.names[k]? = some y.1 → m'.joints[k]? = some e → e.desc.mimic = none ∧ e.desc.nq = 1) →
        ∃ u c X, x.2.1.Dir nrm u ∧ Coords mimic m' x.2.1 q c ∧ x.2.1.Moves u c X ∧
          m'.linkPose j0 g q x.2.2.name = some (Xp * x.2.1.origin.conv * X)) := by
  obtain ⟨-, hed, -, hr'⟩ := C64_tree _ mimic hp hr hf h
  have hi := hr'.inv
  intro x hx
  obtain ⟨fp, fc, h1, h2, h3⟩ := hed x hx
  refine ⟨(m'.toSys j0 g).oM q fp.parentJoint * fp.placement, by unfold linkPose; rw [h1]; rfl, fun hfix => ?_, fun hfix hmim => ?_⟩
  · rw [if_pos hfix] at h3
    unfold linkPose
    rw [h2, Option.map_some, h3.1, h3.2, SE3.mul_assoc]
  · rw [if_neg hfix] at h3
    obtain ⟨c1, c2, c3, c4, c5, c6⟩ := h3
    have hpar : m'.parents.getD fc.parentJoint 0 = fp.parentJoint := by rw [List.getD, c4]; rfl
    have hlt : fc.parentJoint < m'.njoints := by
      rw [← hi.lens.names]
      exact (List.getElem?_eq_some_iff.1 c3).1
    have hstep : m'.linkPose j0 g q x.2.2.name = some ((m'.toSys j0 g).oM q fp.parentJoint * fp.placement * x.2.1.origin.conv *
        ((m'.toSys j0 g).jt fc.parentJoint).M (seg q ((m'.toSys j0 g).iq fc.parentJoint))) := by
      unfold linkPose
      rw [h2, Option.map_some, c1, SE3.mul_one, Sys.oM_step _ c2 (hi.par _ c2 hlt)]
      have e1 : (m'.toSys j0 g).par fc.parentJoint = fp.parentJoint := hpar
      have e2 : (m'.toSys j0 g).pl fc.parentJoint = fp.placement * x.2.1.origin.conv := by
        change m'.jointPlacements.getD _ 1 = _
        rw [List.getD, c5]; rfl
      rw [e1]
      unfold Sys.X
      rw [e2]
      simp only [SE3.mul_assoc]
      rfl
    rcases c6 with ⟨y, hy, k, e, e', pl, k1, k2, k3, k4, k5, k6, k7, k8⟩ | ⟨hn, a, hs, e, k4, k5, -⟩
    · obtain ⟨⟨a, ha⟩, hkk⟩ := hmim y hy
      have hjt : (m'.toSys j0 g).jt fc.parentJoint = (urdfColl nrm inf max).mimic pl y.2.1 y.2.2 := by
        change (m'.joints[fc.parentJoint]?.map (·.desc.payload)).getD j0 = _
        rw [k4, Option.map_some, k5]; rfl
      have hiq : (m'.toSys j0 g).iq fc.parentJoint = e'.idx_q := by
        change (m'.joints[fc.parentJoint]?.map (·.idx_q)).getD 0 = _
        rw [k4, Option.map_some, k6]; rfl
      refine ⟨unitAxis a, _, _, .aligned a ha, Or.inl ⟨y, k, e', hy, k2, k3, (hkk k e' k2 k3).1, (hkk k e' k2 k3).2, rfl⟩, ?_, hstep⟩
      rw [hjt, hiq, k8 a ha]
      rcases hy.2.1 with ht | ht
      · rw [UJoint.Moves, ht, if_pos rfl]
        exact ⟨rfl, isTurn_axis a _ _⟩
      · rw [UJoint.Moves, ht, if_neg (by decide), ← axis_unitAxis]
        exact ⟨rfl, rfl⟩
    · have hjt : (m'.toSys j0 g).jt fc.parentJoint = a.payload := by
        change (m'.joints[fc.parentJoint]?.map (·.desc.payload)).getD j0 = _
        rw [k4, Option.map_some, k5]; rfl
      have hiq : (m'.toSys j0 g).iq fc.parentJoint = e.idx_q := by
        change (m'.joints[fc.parentJoint]?.map (·.idx_q)).getD 0 = _
        rw [k4]; rfl
      obtain ⟨u, hu, hm⟩ := says_moves hs (seg q e.idx_q)
      refine ⟨u, _, _, hu, Or.inr ⟨hn, fc.parentJoint, e, c3, k4, rfl⟩, ?_, hstep⟩
      rw [hjt, hiq]
      exact hm

end Model
end kinematics

/-! ## a concrete description meets the hypotheses -/

namespace UrdfEx

/-- no displacement -/
def here : UPose ℚ := ⟨⟨0, 0, 0⟩, ⟨0, 0, 0, 1⟩⟩
/-- an origin, turned by a rational rotation -/
def off : UPose ℚ := ⟨⟨1, 0, 2⟩, ⟨3 / 5, 0, 0, 4 / 5⟩⟩
/-- a mass of 2 -/
def body : Option (UInertial ℚ) := some ⟨off, 2, 1, 0, 0, 2, 0, 3⟩
/-- limits -/
def lim : Option (ULimits ℚ) := some ⟨-1, 1, 10, 5⟩
/-- a base; a revolute arm with a slider that follows it, behind a fixed part; a wheel -/
def tree : ULink ℚ := .node "base" body [
  (⟨"arm", .revolute, off, ⟨0, 0, 1⟩, lim, some (1, 2), none⟩, .node "upper" body [
    (⟨"weld", .fixed, off, ⟨1, 0, 0⟩, none, none, none⟩, .node "tool" none [
      (⟨"slider", .prismatic, off, ⟨0, 1, 0⟩, lim, none, some ("arm", 2, 1)⟩, .node "finger" body [])])]),
  (⟨"axle", .continuous, here, ⟨1, 1, 0⟩, none, none, none⟩, .node "wheel" body [])]
/-- joint types -/
def coll : JColl ℚ (Joint ℚ) := urdfColl id 1000 2000
/-- a free-flyer at the root -/
def rootFF : Option (JDesc (Joint ℚ) × String) := some (⟨jFreeFlyer, 7, 6, 6, none⟩, "root_joint")
/-- the empty model -/
def m0 : Model ℚ (Joint ℚ) := Model.empty jPlanar

theorem tree_edges : tree.edges.map (fun x => (x.1, x.2.1.name, x.2.2.name)) =
    [("base", "arm", "upper"), ("upper", "weld", "tool"), ("tool", "slider", "finger"), ("base", "axle", "wheel")] := by
  simp [tree, ULink.edges, forestEdges, ULink.name]

theorem reach0 : Model.Reach (jPlanar : Joint ℚ) m0 := .init
theorem plain : Model.RootPlain rootFF := by
  intro r hr; cases hr; exact ⟨rfl, rfl⟩
theorem fresh : Model.FreshTree m0 rootFF tree := by
  have e : ∀ n t, n ≠ "universe" → m0.existFrame n t = false := by
    intro n t h
    simp [m0, Model.empty, Model.bare, Model.addFrame, Model.universeFrame, Model.existFrame, Model.filterFrame, h]
  have l : tree.links.map (·.name) = ["base", "upper", "tool", "finger", "wheel"] := by
    simp [tree, ULink.links, ULink.edges, forestEdges, ULink.name]
  have j : tree.joints.map (·.name) = ["arm", "weld", "slider", "axle"] := by
    simp [tree, ULink.joints, ULink.edges, forestEdges]
  refine ⟨by rw [l]; decide, by rw [j]; simp [Model.rootNames, rootFF], fun x hx => e _ _ ?_, fun n hn => e _ _ ?_⟩
  · have : x.name ∈ tree.links.map (·.name) := List.mem_map_of_mem hx
    rw [l] at this
    intro h; rw [h] at this; revert this; decide
  · rw [j] at hn
    intro h; rw [h] at hn; revert hn; simp [Model.rootNames, rootFF]

instance (a b : V3 ℚ) : Decidable (a.Near b) := by unfold V3.Near; infer_instance

theorem near_e : ∀ i : Fin 3, (unitAxis i : V3 ℚ).Near (unitAxis i) := by decide +kernel

theorem not_near : ∀ i, ¬ (⟨1, 1, 0⟩ : V3 ℚ).Near (unitAxis i) := by decide +kernel

theorem accepted : Model.Accepted coll true rootFF tree m0 := by
  refine ⟨?_, ?_⟩
  · intro n hn
    have : n = "root_joint" := by simpa [Model.rootNames, rootFF] using hn
    subst this
    simp [m0, Model.empty, Model.bare, Model.addFrame, Model.universeFrame, Model.existFrame, Model.filterFrame]
  · have hz : (⟨0, 0, 1⟩ : V3 ℚ) = unitAxis 2 := rfl
    simp only [tree, ULink.edges, forestEdges, List.cons_append, List.nil_append, Model.SuppL]
    refine ⟨Or.inr (Or.inr ⟨?_, _, .revolute rfl rfl (.aligned 2 (by rw [hz]; exact near_e 2))⟩), Or.inl rfl,
      Or.inr (Or.inl ⟨("arm", 2, 1), ⟨rfl, Or.inr rfl, rfl⟩, by simp⟩),
      Or.inr (Or.inr ⟨?_, _, .continuous rfl (.other not_near)⟩), trivial⟩
    · rintro x ⟨-, -, h⟩; cases h
    · rintro x ⟨-, -, h⟩; cases h

theorem masses : ∀ l ∈ tree.links, Model.MassFine (convInertial l.inertial).mass := by
  intro l hl
  have : (convInertial l.inertial).mass = 0 ∨ (convInertial l.inertial).mass = 2 := by
    have h : (convInertial l.inertial).mass ∈ tree.links.map fun l => (convInertial l.inertial).mass := List.mem_map_of_mem hl
    have e : (tree.links.map fun l => (convInertial l.inertial).mass) = [2, 2, 0, 2, 2] := by
      simp [tree, ULink.links, ULink.edges, forestEdges, ULink.inertial, convInertial, UInertial.conv, body]
    rw [e] at h
    simp at h
    tauto
  rcases this with h | h <;> rw [h]
  · exact Model.massFine_zero
  · exact ⟨by norm_num, Or.inr (by norm_num [HasEps.eps])⟩

/-- `C64_accepts`, `C64_tree`, `C64_keeps`: a tree of five links is read -/
example : ∃ m', Model.buildUrdf coll true rootFF tree m0 = .ok m' () ∧
    m'.names = ["universe", "root_joint", "arm", "slider", "axle"] ∧ ∀ x ∈ tree.edges, Model.EdgeOk coll true m' x.1 x.2.1 x.2.2.name := by
  obtain ⟨m', h⟩ := (Model.C64_accepts coll true plain reach0 fresh).2 accepted
  obtain ⟨-, h2, h3, -⟩ := Model.C64_tree coll true plain reach0 fresh h
  refine ⟨m', h, ?_, h2⟩
  rw [h3]
  simp [tree, ULink.edges, forestEdges, Model.rootNames, rootFF, m0, Model.empty, Model.bare, Model.addFrame,
    Model.universeFrame, Model.existFrame, Model.filterFrame]

/-- `C64_inertia`: the hypotheses hold, for every joint -/
example : ∃ m', Model.buildUrdf coll true rootFF tree m0 = .ok m' () ∧ ∀ i,
    (m'.inertias.getD i 0).mass = (m0.inertias.getD i 0).mass + (tree.links.map fun l => Model.contribMass m' i l).sum := by
  obtain ⟨m', h⟩ := (Model.C64_accepts coll true plain reach0 fresh).2 accepted
  refine ⟨m', h, fun i => (Model.C64_inertia coll true plain reach0 fresh h masses (i := i) ?_).2⟩
  have : (m0.inertias.getD i 0).mass = 0 := by
    match i with
    | 0 => decide +kernel
    | i + 1 => rfl
  rw [this]
  exact Model.massFine_zero

/-- `C64_inertial` -/
example : off.conv.rot.IsRot := by
  unfold UPose.conv off
  exact M3.IsRot.mk (by decide +kernel) (by decide +kernel)

/-- `C64_kinematics_partial`: the hypotheses hold for every joint of the tree; the slider follows the arm, which has one
coordinate -/
example (q : ℕ → ℚ) : ∃ m', Model.buildUrdf coll true rootFF tree m0 = .ok m' () ∧ ∀ x ∈ tree.edges, x.2.1.type ≠ .fixed →
    ∃ u c X, x.2.1.Dir id u ∧ Model.Coords true m' x.2.1 q c ∧ x.2.1.Moves u c X := by
  obtain ⟨m', h⟩ := (Model.C64_accepts coll true plain reach0 fresh).2 accepted
  obtain ⟨-, hed, hn, -⟩ := Model.C64_tree coll true plain reach0 fresh h
  have hnames : m'.names = ["universe", "root_joint", "arm", "slider", "axle"] := by
    rw [hn]
    simp [tree, ULink.edges, forestEdges, Model.rootNames, rootFF, m0, Model.empty, Model.bare, Model.addFrame,
      Model.universeFrame, Model.existFrame]
  refine ⟨m', h, fun x hx hfix => ?_⟩
  obtain ⟨Xp, -, -, hk⟩ := Model.C64_kinematics_partial true plain reach0 fresh h jPlanar 0 q x hx
  obtain ⟨u, c, X, h1, h2, h3, -⟩ := hk hfix (by
    intro y hy
    have hx' := hx
    have : y = ("arm", 2, 1) ∧ x.2.1.axis = ⟨0, 1, 0⟩ := by
      obtain ⟨-, -, hm⟩ := hy
      simp only [tree, ULink.edges, forestEdges, List.cons_append, List.nil_append, List.mem_cons, List.not_mem_nil, or_false] at hx
      rcases hx with rfl | rfl | rfl | rfl <;> cases hm
      exact ⟨rfl, rfl⟩
    refine ⟨⟨1, by rw [this.2]; exact near_e 1⟩, fun k e hk he => ?_⟩
    have harm : ∃ cc, ("base", ⟨"arm", .revolute, off, ⟨0, 0, 1⟩, lim, some (1, 2), none⟩, cc) ∈ tree.edges := by
      simp only [tree, ULink.edges, forestEdges, List.cons_append, List.nil_append, List.mem_cons]
      exact ⟨_, Or.inl rfl⟩
    obtain ⟨cc, harm⟩ := harm
    obtain ⟨fp, fc, -, -, h3⟩ := hed _ harm
    rw [if_neg (by intro h; cases h)] at h3
    obtain ⟨-, -, g1, -, -, g2⟩ := h3
    have hkfc : k = fc.parentJoint := by
      rw [this.1] at hk
      rw [hnames] at hk g1
      have k1 : k < 5 := by
        have := (List.getElem?_eq_some_iff.1 hk).1
        simpa using this
      have k2 : fc.parentJoint < 5 := by
        have := (List.getElem?_eq_some_iff.1 g1).1
        simpa using this
      have aux : ∀ r : ℕ, r < 5 → (["universe", "root_joint", "arm", "slider", "axle"] : List String)[r]? = some "arm" → r = 2 := by decide
      rw [aux k k1 hk, aux _ k2 g1]
    rcases g2 with ⟨z, ⟨-, -, hz⟩, -⟩ | ⟨-, a, hs, e2, g3, g4, -⟩
    · cases hz
    · rw [← hkfc, he] at g3
      cases g3
      rw [g4]
      refine ⟨rfl, ?_⟩
      cases hs with
      | revolute _ _ _ => rfl
      | prismatic ht _ _ => cases ht
      | continuous ht _ => cases ht
      | planar ht => cases ht
      | floating ht => cases ht)
  exact ⟨u, c, X, h1, h2, h3⟩

end UrdfEx

/-! ## what the parser does not do -/

namespace UrdfEx

/-- joint types as names with parameters -/
def names : JColl ℚ (String × List ℚ) where
  floating := ("floating", [])
  planar := ("planar", [])
  rev a := ("R", [a.val])
  cont a := ("RUB", [a.val])
  pris a := ("P", [a.val])
  revU u := ("RU", [u.x, u.y, u.z])
  contU u := ("RUBU", [u.x, u.y, u.z])
  prisU u := ("PU", [u.x, u.y, u.z])
  revU0 := ("RU", [1, 0, 0])
  prisU0 := ("PU", [1, 0, 0])
  mimic p s o := ("mimic", p.2 ++ [s, o])
  normalized := id
  inf := 1000
  max := 2000

/-- the empty model -/
def e0 : Model ℚ (String × List ℚ) := .empty ("universe", [])

/-- joint of the link, joints of the model with the mass on them, payloads and indexes -/
def view (l : String) (r : Res (Model ℚ (String × List ℚ)) Unit) : Option (Option ℕ × List (String × ℚ) × List (List ℚ × ℕ)) :=
  match r with
  | .ok m _ => some ((m.link l).map (·.parentJoint), m.names.zip (m.inertias.map (·.mass)),
      m.joints.map fun e => (e.desc.payload.2, e.idx_q))
  | _ => none

/-- a base and one link -/
def one (j : UJoint ℚ) : ULink ℚ := .node "base" none [(j, .node "link" body [])]
/-- a chain of links -/
def three (j1 j2 j3 : UJoint ℚ) : ULink ℚ :=
  .node "base" none [(j1, .node "l1" body [(j2, .node "l2" body [(j3, .node "l3" body [])])])]

end UrdfEx

open UrdfEx in
/-- A URDF joint with the same name as the root joint given to `buildModel` (by default `root_joint`) is accepted, and a joint
is added for it; but its link, with its mass, is attached to the root joint, since the frame of that name already exists. -/
theorem C64_root_name_counterexample :
    view "link" (Model.buildUrdf names false (some (⟨("floating", []), 7, 6, 6, none⟩, "root_joint"))
      (one ⟨"root_joint", .revolute, off, ⟨0, 0, 1⟩, lim, none, none⟩) e0) =
    some (some 1, [("universe", 0), ("root_joint", 2), ("root_joint", 0)], [([], 0), ([], 0), ([2], 7)]) := by decide +kernel

open UrdfEx in
/-- A fixed URDF joint named `universe` is accepted, but the mass of its link is lost: the frame `universe` of the model, which
is a fixed joint, is taken for it. -/
theorem C64_universe_name_counterexample :
    view "link" (Model.buildUrdf names false none (one ⟨"universe", .fixed, off, ⟨0, 0, 1⟩, none, none, none⟩) e0) =
    some (some 0, [("universe", 0)], [([], 0)]) ∧
    view "link" (Model.buildUrdf names false none (one ⟨"weld", .fixed, off, ⟨0, 0, 1⟩, none, none, none⟩) e0) =
    some (some 0, [("universe", 2)], [([], 0)]) := ⟨by decide +kernel, by decide +kernel⟩

open UrdfEx in
/-- The axis of a joint which mimics another one is lost when it is not a coordinate axis: the joint turns about the first axis,
whatever the description says. -/
theorem C64_mimic_axis_counterexample :
    view "l2" (Model.buildUrdf names true none (three ⟨"a", .revolute, off, ⟨0, 0, 1⟩, lim, none, none⟩
      ⟨"b", .revolute, off, ⟨0, 3 / 5, 4 / 5⟩, lim, none, some ("a", 1, 0)⟩ ⟨"c", .fixed, here, ⟨1, 0, 0⟩, none, none, none⟩) e0) =
    some (some 2, [("universe", 0), ("a", 2), ("b", 4)], [([], 0), ([2], 0), ([1, 0, 0, 1, 0], 0)]) := by decide +kernel

open UrdfEx in
/-- A joint `c` that mimics, with multiplier 2, a joint `b` that mimics, with multiplier 3, a joint `a` moves twice as much as
`a`, not six times: the joint reads the coordinate of `a` and keeps its own multiplier. -/
theorem C64_mimic_chain_counterexample :
    view "l3" (Model.buildUrdf names true none (three ⟨"a", .prismatic, off, ⟨0, 0, 1⟩, lim, none, none⟩
      ⟨"b", .prismatic, off, ⟨0, 0, 1⟩, lim, none, some ("a", 3, 0)⟩ ⟨"c", .prismatic, off, ⟨0, 0, 1⟩, lim, none, some ("b", 2, 0)⟩) e0) =
    some (some 3, [("universe", 0), ("a", 2), ("b", 2), ("c", 2)], [([], 0), ([2], 0), ([2, 3, 0], 0), ([2, 2, 0], 0)]) := by
  decide +kernel

open UrdfEx in
/-- A revolute joint that mimics a continuous joint takes for an angle the first coordinate of that joint, which is the cosine of
its angle (index 0, where the continuous joint keeps two coordinates). -/
theorem C64_mimic_continuous_counterexample :
    view "l2" (Model.buildUrdf names true none (three ⟨"a", .continuous, off, ⟨0, 0, 1⟩, none, none, none⟩
      ⟨"b", .revolute, off, ⟨0, 0, 1⟩, lim, none, some ("a", 1, 0)⟩ ⟨"c", .revolute, off, ⟨0, 0, 1⟩, lim, none, none⟩) e0) =
    some (some 2, [("universe", 0), ("a", 2), ("b", 2), ("c", 2)], [([], 0), ([2], 0), ([2, 1, 0], 0), ([2], 2)]) := by
  decide +kernel

open UrdfEx in
/-- The tag `mimic` of a continuous joint is ignored, even with the option `mimic`: the joint gets two coordinates of its own. -/
theorem C64_mimic_ignored_counterexample :
    view "l2" (Model.buildUrdf names true none (three ⟨"a", .revolute, off, ⟨0, 0, 1⟩, lim, none, none⟩
      ⟨"b", .continuous, off, ⟨0, 0, 1⟩, none, none, some ("a", 1, 0)⟩ ⟨"c", .revolute, off, ⟨0, 0, 1⟩, lim, none, none⟩) e0) =
    some (some 2, [("universe", 0), ("a", 2), ("b", 2), ("c", 2)], [([], 0), ([2], 0), ([2], 1), ([2], 3)]) := by
  decide +kernel

open UrdfEx in
/-- The axis of a planar joint, which URDF defines as the normal of the plane, is ignored: the plane is always that of the first
two axes. -/
theorem C64_planar_axis_counterexample :
    (∀ a, (⟨"p", .planar, off, ⟨1, 0, 0⟩, none, none, none⟩ : UJoint ℚ).Says coll a →
      ((a.payload.M fun i => if i = 0 ∨ i = 2 then 1 else 0).trans).dot ⟨1, 0, 0⟩ = 1) ∧
    ∃ a, Model.urdfArgs coll (⟨"p", .planar, off, ⟨1, 0, 0⟩, none, none, none⟩ : UJoint ℚ) = some (some a) ∧
      a.payload = jPlanar := by
  refine ⟨fun a h => ?_, _, rfl, rfl⟩
  cases h with
  | revolute ht _ _ => cases ht
  | prismatic ht _ _ => cases ht
  | continuous ht _ => cases ht
  | planar ht =>
    change ((jPlanar : Joint ℚ).M _).trans.dot _ = 1
    norm_num [jPlanar, V3.dot]
  | floating ht => cases ht

end Pin
