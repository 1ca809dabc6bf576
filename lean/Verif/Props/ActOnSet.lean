import Verif.Spatial.ActOnSetLemmas
import Verif.Spatial.Examples

/-! # C83 — actions on sets of motions and forces

`forceSet` and `motionSet` apply a placement, a motion or an inertia to every column of a 6×N matrix.
Input and output are the blocks of `n` columns from `a` and from `b` of one storage: disjoint blocks
are two matrices, `a = b` is a call in place. -/

namespace Pin
open OnSet
variable {K : Type*} [CommRing K]

/-! ## Specification -/
namespace OnSet

/-- 6×6 matrix times column. -/
def times (X : M6 K) (c : Col6 K) : Col6 K :=
  ⟨X.ll.mulVec c.lin + X.la.mulVec c.ang, X.al.mulVec c.lin + X.aa.mulVec c.ang⟩

/-- `M'` is `M` with the columns `b … b+n-1` replaced by (SETTO), increased by (ADDTO) or decreased by
(RMTO) the image under `g` of the columns `a … a+n-1` of `M`; no other column changes. -/
structure Applied (op : Op) (g : Col6 K → Col6 K) (a b n : ℕ) (M M' : Mem K) : Prop where
  set : op = .setto → ∀ k < n, M' (b + k) = g (M (a + k))
  add : op = .addto → ∀ k < n, (M' (b + k)).lin = (M (b + k)).lin + (g (M (a + k))).lin ∧
    (M' (b + k)).ang = (M (b + k)).ang + (g (M (a + k))).ang
  rm : op = .rmto → ∀ k < n, (M' (b + k)).lin = (M (b + k)).lin - (g (M (a + k))).lin ∧
    (M' (b + k)).ang = (M (b + k)).ang - (g (M (a + k))).ang
  other : ∀ j, j < b ∨ b + n ≤ j → M' j = M j

/-- No column of the input is written before it is read: the two blocks are disjoint, or the output
starts at or before the input. In place (`a = b`) is allowed. -/
def NoForwardOverlap (a b n : ℕ) : Prop := a + n ≤ b ∨ b ≤ a

/-- The same, and an assignment (SETTO) is not in place. -/
def NotInPlace (op : Op) (a b n : ℕ) : Prop := NoForwardOverlap a b n ∧ (op = .setto → a ≠ b ∨ n = 0)

theorem applied_of {step : Mem K → ℕ → ℕ → Mem K} {op : Op} {g g' : Col6 K → Col6 K} {a b n : ℕ}
    (hs : ∀ (M : Mem K) (k : ℕ), k < n →
      step M (a + k) (b + k) = Function.update M (b + k) (comb op (M (b + k)) (g (M (a + k)))))
    (hg : ∀ c, g c = g' c)
    (hab : a + n ≤ b ∨ b ≤ a) (M : Mem K) : Applied op g' a b n M (cols step a b n M) := by
  obtain rfl : g = g' := funext hg
  obtain ⟨h1, h2⟩ := cols_ok hs hab M
  refine ⟨?_, ?_, ?_, h2⟩
  · rintro rfl k hk; exact h1 k hk
  · rintro rfl k hk; rw [h1 k hk]; exact ⟨rfl, rfl⟩
  · rintro rfl k hk; rw [h1 k hk]; exact ⟨rfl, rfl⟩

end OnSet

/-! ## Theorems -/

/-- `forceSet::se3Action`: every column is multiplied by the dual action matrix; in place allowed. -/
theorem C83_force_se3 (op : Op) (m : SE3 K) {a b n : ℕ} (h : NoForwardOverlap a b n) (M : Mem K) :
    Applied op (times m.toDualActionMatrix) a b n M (forceSe3 op m a b n M) :=
  applied_of (g := fun c => ofFrc (m.actF c.frc)) (fun M _ _ => assign_eq op M _ _)
    (fun c => by rw [← SE3.toDualActionMatrix_mul]; rfl) h M

/-- `forceSet::se3ActionInverse`: every column is multiplied by the transpose of the action matrix,
the inverse of the dual action matrix for a rotation (`C83_inverse_matrices`); in place allowed. -/
theorem C83_force_se3_inverse (op : Op) (m : SE3 K) {a b n : ℕ} (h : NoForwardOverlap a b n) (M : Mem K) :
    Applied op (times m.toActionMatrix.tr) a b n M (forceSe3Inv op m a b n M) :=
  applied_of (g := fun c => ofFrc (m.actInvF c.frc)) (fun M _ _ => assign_eq op M _ _)
    (fun c => by rw [← actInvF_mul]; rfl) h M

/-- `motionSet::se3Action`: every column is multiplied by the action matrix; in place allowed. -/
theorem C83_motion_se3 (op : Op) (m : SE3 K) {a b n : ℕ} (h : NoForwardOverlap a b n) (M : Mem K) :
    Applied op (times m.toActionMatrix) a b n M (motionSe3 op m a b n M) :=
  applied_of (g := fun c => ofMot (m.act c.mot)) (fun M _ _ => assign_eq op M _ _)
    (fun c => by rw [← SE3.toActionMatrix_mul]; rfl) h M

/-- `motionSet::se3ActionInverse`: every column is multiplied by the inverse action matrix; in place
allowed. -/
theorem C83_motion_se3_inverse (op : Op) (m : SE3 K) {a b n : ℕ} (h : NoForwardOverlap a b n) (M : Mem K) :
    Applied op (times m.toActionMatrixInverse) a b n M (motionSe3Inv op m a b n M) :=
  applied_of (g := fun c => ofMot (m.actInv c.mot)) (fun M _ _ => assign_eq op M _ _)
    (fun c => by rw [← SE3.toActionMatrixInverse_mul]; rfl) h M

/-- `motionSet::motionAction`: every column is multiplied by the matrix of `v ×`; in place allowed. -/
theorem C83_motion_motion (op : Op) (v : Motion K) {a b n : ℕ} (h : NoForwardOverlap a b n) (M : Mem K) :
    Applied op (times v.toActionMatrix) a b n M (motionMotion op v a b n M) :=
  applied_of (g := fun c => ofMot (v.cross c.mot)) (fun M _ _ => motionMotionCol_eq op v M _ _)
    (fun c => by rw [← cross_mul]; rfl) h M

/-- `forceSet::motionAction`: every column is multiplied by the matrix of `v ×*`, except for an
assignment in place. -/
theorem C83_force_motion_partial (op : Op) (v : Motion K) {a b n : ℕ} (h : NotInPlace op a b n) (M : Mem K) :
    Applied op (times v.toDualActionMatrix) a b n M (forceMotion op v a b n M) :=
  applied_of (g := fun c => ofFrc (v.crossF c.frc)) (fun M k hk => forceMotionCol_eq op v M (i := a + k) (o := b + k) (fun e => by have := h.2 e; omega))
    (fun c => by rw [← crossF_mul]; rfl) h.1 M

/-- `motionSet::inertiaAction`: every column is multiplied by the inertia matrix, except for an
assignment in place. -/
theorem C83_inertia_partial (op : Op) (I : Inertia K) {a b n : ℕ} (h : NotInPlace op a b n) (M : Mem K) :
    Applied op (times I.matrix) a b n M (inertiaSet op I a b n M) :=
  applied_of (g := fun c => ofFrc (I.mul c.mot)) (fun M k hk => inertiaCol_eq op I M (i := a + k) (o := b + k) (fun e => by have := h.2 e; omega))
    (fun c => by rw [← Inertia.matrix_mulMF]; rfl) h.1 M

/-- `motionSet::act`: the force is multiplied by the matrix `v ×*` of every column `v`, except for an
assignment in place. -/
theorem C83_act_force_partial (op : Op) (f : Force K) {a b n : ℕ} (h : NotInPlace op a b n) (M : Mem K) :
    Applied op (fun c => times (Motion.toDualActionMatrix ⟨c.lin, c.ang⟩) ⟨f.lin, f.ang⟩) a b n M
      (actForce op f a b n M) :=
  applied_of (g := fun c => ofFrc (c.mot.crossF f)) (fun M k hk => actForceCol_eq op f M (i := a + k) (o := b + k) (fun e => by have := h.2 e; omega))
    (fun c => by rw [← crossF_mul]; rfl) h.1 M

/-- For a rotation the matrices of the inverse actions undo those of the actions, so that
`se3ActionInverse` after `se3Action` gives every column back. -/
theorem C83_inverse_matrices (m : SE3 K) (hm : m.Valid) (c : Col6 K) :
    times m.toActionMatrixInverse (times m.toActionMatrix c) = c ∧
    times m.toActionMatrix.tr (times m.toDualActionMatrix c) = c := by
  have h1 := SE3.actInv_act hm ⟨c.lin, c.ang⟩
  have h2 := SE3.actInvF_actF hm ⟨c.lin, c.ang⟩
  rw [← SE3.toActionMatrix_mul, ← SE3.toActionMatrixInverse_mul] at h1
  rw [← SE3.toDualActionMatrix_mul, ← actInvF_mul] at h2
  constructor
  · have := congrArg ofMot h1; exact this
  · have := congrArg ofFrc h2; exact this

/-- In place there and back: the columns are what they were. -/
theorem C83_round_trip (m : SE3 K) (hm : m.Valid) (a n : ℕ) (M : Mem K) :
    motionSe3Inv .setto m a a n (motionSe3 .setto m a a n M) = M ∧
    forceSe3Inv .setto m a a n (forceSe3 .setto m a a n M) = M := by
  have hN : NoForwardOverlap a a n := Or.inr le_rfl
  constructor
  · funext j
    have A := C83_motion_se3 .setto m hN M
    have B := C83_motion_se3_inverse .setto m hN (motionSe3 .setto m a a n M)
    by_cases hj : j < a ∨ a + n ≤ j
    · rw [B.other j hj, A.other j hj]
    · obtain ⟨k, rfl⟩ : ∃ k, j = a + k := ⟨j - a, by omega⟩
      rw [B.set rfl k (by omega), A.set rfl k (by omega), (C83_inverse_matrices m hm _).1]
  · funext j
    have A := C83_force_se3 .setto m hN M
    have B := C83_force_se3_inverse .setto m hN (forceSe3 .setto m a a n M)
    by_cases hj : j < a ∨ a + n ≤ j
    · rw [B.other j hj, A.other j hj]
    · obtain ⟨k, rfl⟩ : ∃ k, j = a + k := ⟨j - a, by omega⟩
      rw [B.set rfl k (by omega), A.set rfl k (by omega), (C83_inverse_matrices m hm _).2]

/-! ## The hypotheses are met; the calls in place that go wrong -/

/-- Columns with distinct entries. -/
def Ex.setMem : Mem ℚ := fun j => ⟨⟨1, 2 + j, 3⟩, ⟨4, 5, 6 - j⟩⟩

/-- Two matrices of two columns, one call in place and one shifted back by a column. -/
example : NotInPlace .setto 0 2 2 ∧ NoForwardOverlap 3 3 2 ∧ NotInPlace .setto 1 0 3 ∧
    NotInPlace .addto 4 4 2 ∧ Ex.mA.Valid ∧
    forceSe3 .setto Ex.mA 0 2 2 Ex.setMem 3 ≠ Ex.setMem 3 ∧ inertiaSet .rmto Ex.iA 4 4 2 Ex.setMem 5 ≠ Ex.setMem 5 := by
  refine ⟨⟨Or.inl (by decide), by decide⟩, Or.inr le_rfl, ⟨Or.inr (by decide), by decide⟩,
    ⟨Or.inr le_rfl, by decide⟩, Ex.mA_valid, ?_, ?_⟩
  · decide +kernel
  · decide +kernel

/-- A motion used in the counterexamples. -/
def Ex.setV : Motion ℚ := ⟨⟨1, 0, 0⟩, ⟨0, 0, 1⟩⟩

/-- `forceSet::motionAction(v, F, F)` is wrong: the angular part of every column is computed from the
linear part just written. `+=` and `-=` in place, and `motionSet::motionAction` in place, are right. -/
theorem C83_force_motion_in_place_counterexample :
    ∃ (v : Motion ℚ) (M : Mem ℚ),
      forceMotion .setto v 0 0 1 M 0 ≠ times v.toDualActionMatrix (M 0) ∧
      forceMotion .setto v 0 1 1 M 1 = times v.toDualActionMatrix (M 0) :=
  ⟨Ex.setV, Ex.setMem, by decide +kernel, by decide +kernel⟩

/-- `motionSet::inertiaAction(I, V, V)` is wrong: the rows of the rotational inertia are applied to
an angular part already partly overwritten. `+=` and `-=` in place are right. -/
theorem C83_inertia_in_place_counterexample :
    ∃ (I : Inertia ℚ) (M : Mem ℚ),
      inertiaSet .setto I 0 0 1 M 0 ≠ times I.matrix (M 0) ∧
      inertiaSet .setto I 0 1 1 M 1 = times I.matrix (M 0) :=
  ⟨Ex.iA, Ex.setMem, by decide +kernel, by decide +kernel⟩

/-- `motionSet::act(V, f, V)` is wrong: the moment is computed from the linear part just written.
`+=` and `-=` in place are right. -/
theorem C83_act_force_in_place_counterexample :
    ∃ (f : Force ℚ) (M : Mem ℚ),
      actForce .setto f 0 0 1 M 0 ≠ times (Motion.toDualActionMatrix ⟨(M 0).lin, (M 0).ang⟩) ⟨f.lin, f.ang⟩ ∧
      actForce .setto f 0 1 1 M 1 = times (Motion.toDualActionMatrix ⟨(M 0).lin, (M 0).ang⟩) ⟨f.lin, f.ang⟩ :=
  ⟨⟨⟨1, 2, 3⟩, ⟨0, 1, 0⟩⟩, Ex.setMem, by decide +kernel, by decide +kernel⟩

/-- `motionSet::se3Action` from the columns `0 … 1` of a matrix to its columns `1 … 2` acts twice on the
first column: the loop reads column 1 after writing it. -/
theorem C83_forward_overlap_counterexample :
    ∃ (m : SE3 ℚ) (M : Mem ℚ), m.Valid ∧
      motionSe3 .setto m 0 1 2 M 2 ≠ times m.toActionMatrix (M 1) ∧
      motionSe3 .setto m 0 1 2 M 2 = times m.toActionMatrix (times m.toActionMatrix (M 0)) :=
  ⟨Ex.mA, Ex.setMem, Ex.mA_valid, by decide +kernel, by decide +kernel⟩
end Pin
