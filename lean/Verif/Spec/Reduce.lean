import Verif.Model.Reduce

/-!
# Specification: locking joints of a model

Written with the tables of the input model only. `attach j` says where body `j` goes when the joints of `lock` are fixed: the
nearest ancestor that is not locked (`j` itself when it is not), and the constant placement of `j` in it.
-/

namespace Pin
variable {K P : Type*}

/-- the joints below `j` that are not locked, universe included, in their order -/
def keptBefore (lock : List ℕ) (j : ℕ) : List ℕ := (List.range j).filter (fun i => i ∉ lock)

/-- the index of the joint `j` in the reduced model: how many joints below `j` are not locked -/
def rank (lock : List ℕ) (j : ℕ) : ℕ := (keptBefore lock j).length

/-- Nearest ancestor that is not locked, and placement in it, when joint `i` is fixed at `Mref i`. -/
def attach [CommRing K] (par : ℕ → ℕ) (pl Mref : ℕ → SE3 K) (lock : List ℕ) (j : ℕ) : ℕ × SE3 K :=
  if h : j ∈ lock ∧ par j < j then
    ((attach par pl Mref lock (par j)).1, (attach par pl Mref lock (par j)).2 * pl j * Mref j)
  else (j, 1)
termination_by j
decreasing_by all_goals exact h.2

namespace Model
section
variable [CommRing K]

/-- parent of a joint -/
def par (m : Model K P) (i : ℕ) : ℕ := m.parents.getD i 0
/-- placement of a joint in the frame of its parent -/
def pl (m : Model K P) (i : ℕ) : SE3 K := m.jointPlacements.getD i 1
/-- name of a joint -/
def name (m : Model K P) (i : ℕ) : String := m.names.getD i ""
/-- inertia of a joint -/
def inertia (m : Model K P) (i : ℕ) : Inertia K := m.inertias.getD i 0

/-- transform of joint `i` at a configuration -/
def jointM (m : Model K (Joint K)) (q : List K) (i : ℕ) : SE3 K :=
  match m.joints[i]? with
  | some e => e.desc.payload.M (seg (fun k => q.getD k 0) e.idx_q)
  | none => 1

/-- where body `j` goes in the reduced model -/
def att (m : Model K (Joint K)) (lock : List ℕ) (qref : List K) (j : ℕ) : ℕ × SE3 K :=
  attach m.par m.pl (m.jointM qref) lock j

/-- Joint `k` of `m'` is joint `i` of `m`: same type and sizes, same values of every parameter attached to its coordinates. -/
structure SameJoint (m m' : Model K P) (i k : ℕ) : Prop where
  name : m'.name k = m.name i
  entry : ∃ e o, m.joints[i]? = some e ∧ m'.joints[k]? = some o ∧ o.desc.payload = e.desc.payload ∧ o.desc.nq = e.desc.nq ∧
    o.desc.nv = e.desc.nv ∧ o.desc.nvx = e.desc.nvx ∧ (o.desc.mimic = none ↔ e.desc.mimic = none) ∧
    selV o m'.effortLimit = selV e m.effortLimit ∧ selV o m'.velocityLimit = selV e m.velocityLimit ∧
    selQ o m'.lowerPositionLimit = selQ e m.lowerPositionLimit ∧ selQ o m'.upperPositionLimit = selQ e m.upperPositionLimit ∧
    selV o m'.friction = selV e m.friction ∧ selV o m'.damping = selV e m.damping ∧
    selV o m'.rotorInertia = selV e m.rotorInertia ∧ selV o m'.rotorGearRatio = selV e m.rotorGearRatio
end

/-- values for the vectors of a model a user sets after the construction calls, `multibody/model.hpp:159-197` -/
structure Params (K : Type*) where
  armature : List K
  rotorInertia : List K
  rotorGearRatio : List K
  friction : List K
  damping : List K
  effortLimit : List K
  velocityLimit : List K
  lowerPositionLimit : List K
  upperPositionLimit : List K

/-- assignment of these vectors -/
def setParams (m : Model K P) (p : Params K) : Model K P :=
  { m with
    armature := p.armature
    rotorInertia := p.rotorInertia
    rotorGearRatio := p.rotorGearRatio
    friction := p.friction
    damping := p.damping
    effortLimit := p.effortLimit
    velocityLimit := p.velocityLimit
    lowerPositionLimit := p.lowerPositionLimit
    upperPositionLimit := p.upperPositionLimit }

/-- the sizes are those of the model -/
def Params.Fits (p : Params K) (m : Model K P) : Prop :=
  p.armature.length = m.nv ∧
  p.rotorInertia.length = m.nv ∧
  p.rotorGearRatio.length = m.nv ∧
  p.friction.length = m.nv ∧
  p.damping.length = m.nv ∧
  p.effortLimit.length = m.nv ∧
  p.velocityLimit.length = m.nv ∧
  p.lowerPositionLimit.length = m.nq ∧
  p.upperPositionLimit.length = m.nq

section
variable [Field K] [LinearOrder K] [HasEps K]

/-- Models built by construction calls, whose vectors of parameters have then been set to any values. -/
def Built (p0 : P) (inp : Model K P) : Prop :=
  ∃ (m : Model K P) (p : Params K), Reach p0 m ∧ p.Fits m ∧ inp = m.setParams p

/-- Models and lists of joints for which the reduction is specified: joints have distinct names, a frame of the type of a
fixed joint does not have the name of a joint, masses are zero or at least machine epsilon, the universe is not locked. -/
structure Reducible (inp : Model K (Joint K)) (lock : List ℕ) : Prop where
  names : inp.names.Nodup
  fixed : ∀ f ∈ inp.frames, FIXED_JOINT &&& f.type ≠ 0 → ∀ i, 1 ≤ i → i < inp.njoints → f.name ≠ inp.name i
  mass : ∀ i < inp.njoints, MassFine (inp.inertia i).mass
  lock : 0 ∉ lock

/-- Frames for which the copy is specified: each has a type, and a frame named as a joint is attached to that joint. -/
structure FramesOk (inp : Model K P) : Prop where
  type : ∀ f ∈ inp.frames, f.type ≠ 0
  own : ∀ f ∈ inp.frames, ∀ i, 1 ≤ i → i < inp.njoints → f.name = inp.name i → f.parentJoint = i

/-- `g` stands for the frame `f` of the input: same name, type and inertia, attached to the joint of the reduced model that
carries the parent joint of `f`, at the placement of `f` in it. -/
structure FrameOf (inp : Model K (Joint K)) (L : List ℕ) (qref : List K) (f g : Frame K) : Prop where
  name : g.name = f.name
  type : g.type = f.type
  inertia : g.inertia = f.inertia
  parentJoint : g.parentJoint = rank L (inp.att L qref f.parentJoint).1
  placement : g.placement = (inp.att L qref f.parentJoint).2 * f.placement

/-- `g` stands for the locked joint `i` of the input. -/
structure FrameOfJoint (inp : Model K (Joint K)) (L : List ℕ) (qref : List K) (i : ℕ) (g : Frame K) : Prop where
  name : g.name = inp.name i
  type : g.type = FIXED_JOINT
  inertia : g.inertia = inp.inertia i
  parentJoint : g.parentJoint = rank L (inp.att L qref i).1
  placement : g.placement = (inp.att L qref i).2
end
end Model

/-! ## the same motion on the two models -/

/-- The functions of a joint read only the coordinates of that joint, and its velocity and bias vanish when it does not move.
Shown for the joint types of the library in `Verif/Model/ReduceDyn.lean`. -/
structure Joint.Local [CommRing K] (J : Joint K) : Prop where
  M : ∀ x y : ℕ → K, (∀ k < J.nq, x k = y k) → J.M x = J.M y
  S : ∀ x y : ℕ → K, (∀ k < J.nq, x k = y k) → J.S x = J.S y
  v : ∀ x y v w : ℕ → K, (∀ k < J.nq, x k = y k) → (∀ k < J.nv, v k = w k) → J.v x v = J.v y w
  c : ∀ x y v w : ℕ → K, (∀ k < J.nq, x k = y k) → (∀ k < J.nv, v k = w k) → J.c x v = J.c y w
  still : ∀ x : ℕ → K, J.v x (fun _ => 0) = 0
  rest : ∀ x : ℕ → K, J.c x (fun _ => 0) = 0

namespace Sys

/-- `q'` is the configuration `q` of the kept joints, and `q` has the locked joints at the reference `qref` -/
structure SameConfig (s r : Sys K) (lock : List ℕ) (qref q q' : ℕ → K) : Prop where
  kept : ∀ i, 1 ≤ i → i < s.n → i ∉ lock → ∀ k < (s.jt i).nq, q' (r.iq (rank lock i) + k) = q (s.iq i + k)
  lock : ∀ i, 1 ≤ i → i < s.n → i ∈ lock → ∀ k < (s.jt i).nq, q (s.iq i + k) = qref (s.iq i + k)

/-- `w'` is the velocity (or acceleration) `w` of the kept joints, and the locked joints do not move in `w` -/
structure SameVel [Zero K] (s r : Sys K) (lock : List ℕ) (w w' : ℕ → K) : Prop where
  kept : ∀ i, 1 ≤ i → i < s.n → i ∉ lock → ∀ k < s.jnv i, w' (r.iv (rank lock i) + k) = w (s.iv i + k)
  lock : ∀ i, 1 ≤ i → i < s.n → i ∈ lock → ∀ k < s.jnv i, w (s.iv i + k) = 0

end Sys
end Pin
