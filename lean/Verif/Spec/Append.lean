import Verif.Spec.Reduce
import Verif.Model.Append

/-!
# Specification: a model made of two models

`r` is `A` with `B` hung at the frame `fr` of `A`, `aMb` being the placement of the universe of `B` in `fr`. A joint of `A` or `B`
is found in `r` by its name.
-/

namespace Pin
variable {K P : Type*}
namespace Model
section
variable [Field K] [LinearOrder K] [HasEps K]

/-- the joint of `r` that stands for joint `i` of `A` -/
def inA (A r : Model K P) (i : ℕ) : ℕ := if i = 0 then 0 else r.getJointId (A.name i)

/-- the joint of `r` that stands for joint `j` of `B`; the universe of `B` becomes part of the joint `p` of `A` -/
def inB (A B r : Model K P) (p j : ℕ) : ℕ := if j = 0 then inA A r p else r.getJointId (B.name j)

/-- placement, in `r`, of what `B` has at `X` relative to its joint `j` -/
def placeB (fr : Frame K) (aMb : SE3 K) (j : ℕ) (X : SE3 K) : SE3 K := if j = 0 then fr.placement * aMb * X else X

/-- The joints of `r` are those of `A` and those of `B`, each once, with their names, types, sizes and parameters; the joints
of `A` keep their parents and placements, those of `B` too but for the ones that hang from the universe of `B`. -/
structure Merged (A B r : Model K P) (fr : Frame K) (aMb : SE3 K) : Prop where
  njoints : r.njoints + 1 = A.njoints + B.njoints
  rangeA : ∀ i, 1 ≤ i → i < A.njoints → 1 ≤ inA A r i ∧ inA A r i < r.njoints
  rangeB : ∀ j, 1 ≤ j → j < B.njoints → 1 ≤ inB A B r fr.parentJoint j ∧ inB A B r fr.parentJoint j < r.njoints
  injA : ∀ i j, 1 ≤ i → i < A.njoints → 1 ≤ j → j < A.njoints → inA A r i = inA A r j → i = j
  injB : ∀ i j, 1 ≤ i → i < B.njoints → 1 ≤ j → j < B.njoints →
    inB A B r fr.parentJoint i = inB A B r fr.parentJoint j → i = j
  disjoint : ∀ i j, 1 ≤ i → i < A.njoints → 1 ≤ j → j < B.njoints → inA A r i ≠ inB A B r fr.parentJoint j
  cover : ∀ k, 1 ≤ k → k < r.njoints → (∃ i, 1 ≤ i ∧ i < A.njoints ∧ inA A r i = k) ∨
    ∃ j, 1 ≤ j ∧ j < B.njoints ∧ inB A B r fr.parentJoint j = k
  jointA : ∀ i, 1 ≤ i → i < A.njoints → SameJoint A r i (inA A r i) ∧ r.par (inA A r i) = inA A r (A.par i) ∧
    r.pl (inA A r i) = A.pl i
  jointB : ∀ j, 1 ≤ j → j < B.njoints → SameJoint B r j (inB A B r fr.parentJoint j) ∧
    r.par (inB A B r fr.parentJoint j) = inB A B r fr.parentJoint (B.par j) ∧
    r.pl (inB A B r fr.parentJoint j) = placeB fr aMb (B.par j) (B.pl j)

/-- Frame `g` of `r` stands for frame `f` of `A`. -/
structure FrameOfA (A r : Model K P) (f g : Frame K) : Prop where
  name : g.name = f.name
  type : g.type = f.type
  inertia : g.inertia = f.inertia
  parentJoint : g.parentJoint = inA A r f.parentJoint
  placement : g.placement = f.placement

/-- Frame `g` of `r` stands for frame `f` of `B`. -/
structure FrameOfB (A B r : Model K P) (fr : Frame K) (aMb : SE3 K) (f g : Frame K) : Prop where
  name : g.name = f.name
  type : g.type = f.type
  inertia : g.inertia = f.inertia
  parentJoint : g.parentJoint = inB A B r fr.parentJoint f.parentJoint
  placement : g.placement = placeB fr aMb f.parentJoint f.placement

/-- masses are zero or at least machine epsilon -/
def MassesFine (m : Model K P) : Prop := ∀ i < m.njoints, MassFine (m.inertia i).mass

/-- no frame carries an inertia -/
def NoFrameInertia (m : Model K P) : Prop := ∀ f ∈ m.frames, f.inertia = 0
end
end Model

namespace Sys
/-- `q'` gives to the joints of `r` that stand for those of `s` (through `φ`) the values they have in `q` -/
def SameQ (s r : Sys K) (φ : ℕ → ℕ) (q q' : ℕ → K) : Prop :=
  ∀ i, 1 ≤ i → i < s.n → ∀ k < (s.jt i).nq, q' (r.iq (φ i) + k) = q (s.iq i + k)

/-- the same for velocities and accelerations -/
def SameV (s r : Sys K) (φ : ℕ → ℕ) (v v' : ℕ → K) : Prop :=
  ∀ i, 1 ≤ i → i < s.n → ∀ k < s.jnv i, v' (r.iv (φ i) + k) = v (s.iv i + k)
end Sys
end Pin
