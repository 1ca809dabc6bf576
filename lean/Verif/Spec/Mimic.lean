import Verif.Spec.Reduce

/-!
# What it means that a joint follows another one

`insertAt a n x w` is the vector `w` with the `n` values `x` inserted at position `a`. A model in which joint `j` follows joint
`i` must behave as the original model in which the coordinates of `j` are computed from those of `i`.
-/

namespace Pin
variable {K P : Type*}

/-- `w` with the values `x 0, …, x (n - 1)` inserted at position `a` -/
def insertAt (a n : ℕ) (x w : ℕ → K) : ℕ → K := fun r => if r < a then w r else if r < a + n then x (r - a) else w (r - n)

/-- position in the long vector of entry `r` of the short one -/
def skip (a n r : ℕ) : ℕ := if r < a then r else r + n

namespace Model

/-- The sizes of each joint type are those of the entry, or of the joint it follows for a mimic joint
(`joint/joint-mimic.hpp:605-611`). -/
def SizesOk (m : Model K (Joint K)) : Prop :=
  ∀ k e, 1 ≤ k → m.joints[k]? = some e →
    (e.desc.mimic = none → e.desc.payload.nq = e.desc.nq ∧ e.desc.payload.nv = e.desc.nv) ∧
    (∀ mid mq mv, e.desc.mimic = some (mid, mq, mv) → ∃ p, m.joints[mid]? = some p ∧
      e.desc.payload.nq = p.desc.nq ∧ e.desc.payload.nv = p.desc.nv)

/-- The mimic joints of the model follow, with its indexes, an earlier joint which is not a mimic joint, and have no coordinate
of their own; none of them follows `j`. -/
def FollowsOk (m : Model K P) (j : ℕ) : Prop :=
  ∀ k e mid mq mv, m.joints[k]? = some e → e.desc.mimic = some (mid, mq, mv) →
    mq = e.idx_q ∧ mv = e.idx_v ∧ e.desc.nq = 0 ∧ e.desc.nv = 0 ∧ 1 ≤ mid ∧ mid < k ∧ mid ≠ j ∧
    ∃ p, m.joints[mid]? = some p ∧ p.desc.mimic = none ∧ e.idx_q = p.idx_q ∧ e.idx_v = p.idx_v

/-- Joint `k` is, in `m'`, the same joint as in `m`, with the same parameters; if it follows a joint, it follows the same one with
its indexes in `m'`. -/
def KeepsJoint (m m' : Model K P) (k : ℕ) : Prop :=
  ∀ e, m.joints[k]? = some e → ∃ o, m'.joints[k]? = some o ∧
    o.id = e.id ∧ o.idx_vx = e.idx_vx ∧ o.desc.payload = e.desc.payload ∧ o.desc.nq = e.desc.nq ∧ o.desc.nv = e.desc.nv ∧
    o.desc.nvx = e.desc.nvx ∧ (e.desc.mimic = none → o.desc.mimic = none) ∧
    (∀ mid mq mv, e.desc.mimic = some (mid, mq, mv) → ∃ p, m'.joints[mid]? = some p ∧
      o.desc.mimic = some (mid, p.idx_q, p.idx_v) ∧ o.idx_q = p.idx_q ∧ o.idx_v = p.idx_v) ∧
    selV o m'.effortLimit = selV e m.effortLimit ∧ selV o m'.velocityLimit = selV e m.velocityLimit ∧
    selQ o m'.lowerPositionLimit = selQ e m.lowerPositionLimit ∧ selQ o m'.upperPositionLimit = selQ e m.upperPositionLimit ∧
    selV o m'.armature = selV e m.armature ∧ selV o m'.rotorInertia = selV e m.rotorInertia ∧
    selV o m'.rotorGearRatio = selV e m.rotorGearRatio ∧ selV o m'.friction = selV e m.friction ∧
    selV o m'.damping = selV e m.damping

/-- The tree, the placements, the inertias, the frames and the extended sizes of `m'` are those of `m`. -/
def SameTree (m m' : Model K P) : Prop :=
  m'.njoints = m.njoints ∧ m'.nbodies = m.nbodies ∧ m'.nframes = m.nframes ∧ m'.names = m.names ∧ m'.parents = m.parents ∧
    m'.children = m.children ∧ m'.supports = m.supports ∧ m'.subtrees = m.subtrees ∧ m'.jointPlacements = m.jointPlacements ∧
    m'.inertias = m.inertias ∧ m'.frames = m.frames ∧ m'.nvx = m.nvx ∧ m'.nvxs = m.nvxs ∧ m'.idx_vxs = m.idx_vxs

/-- Joint `j`, of entry `ej` before, is in `m'` the mimic joint `J` of joint `i`: it has no coordinate and the indexes of `i`. -/
def Follows (m' : Model K P) (i j : ℕ) (ej : JEntry P) (J : P) : Prop :=
  ∃ p, m'.joints[i]? = some p ∧ p.desc.mimic = none ∧
    m'.joints[j]? = some ⟨⟨J, 0, 0, ej.desc.nvx, some (i, p.idx_q, p.idx_v)⟩, j, p.idx_q, p.idx_v, ej.idx_vx⟩

/-- `m'` is `m` in which joint `j`, of entry `ej`, has become the mimic joint `J` of joint `i`. -/
structure MimicOf (m m' : Model K P) (i j : ℕ) (ej : JEntry P) (J : P) : Prop where
  same : m.SameTree m'
  nq : m'.nq + ej.desc.nq = m.nq
  nv : m'.nv + ej.desc.nv = m.nv
  new : m'.Follows i j ej J
  other : ∀ k, k ≠ j → m.KeepsJoint m' k
  /-- the lists of mimic joints -/
  mimicking : ∀ k, k ∈ m'.mimicking ↔ k = j ∨ k ∈ m.mimicking
  mimicked : ∀ k, k ∈ m'.mimicked ↔ k = i ∨ k ∈ m.mimicked
  mimicSupports : ∀ k < m.njoints, ∀ l, l ∈ m'.mimicSupports.getD k [] ↔
    l ∈ m.mimicSupports.getD k [] ∨ l = j ∧ j ∈ m.supports.getD k []

/-- Lists of pairs (joint to follow, joint that becomes a mimic joint): joints of the model which are not mimic joints, the first
one before the second; no joint becomes a mimic joint twice, or is followed and becomes one. -/
structure MimicPairs (m : Model K P) (l : List (ℕ × ℕ × K × K)) : Prop where
  range : ∀ x ∈ l, 1 ≤ x.1 ∧ x.1 < x.2.1 ∧ x.2.1 < m.njoints
  plain : ∀ x ∈ l, ∀ e, m.joints[x.1]? = some e ∨ m.joints[x.2.1]? = some e → e.desc.mimic = none
  nodup : (l.map (·.2.1)).Nodup
  apart : ∀ x ∈ l, ∀ y ∈ l, x.1 ≠ y.2.1
  follows : ∀ x ∈ l, m.FollowsOk x.2.1

end Model
end Pin
