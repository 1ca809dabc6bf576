import Verif.Spatial.ActOnSet
import Mathlib.Tactic.Ring

/-! # Lemmas on the actions on sets -/

namespace Pin
namespace OnSet
variable {K : Type*} [CommRing K]

/-- The value an assignment operator leaves in a cell. -/
def comb (op : Op) (old new : Col6 K) : Col6 K :=
  match op with
  | .setto => new
  | .addto => ⟨old.lin + new.lin, old.ang + new.ang⟩
  | .rmto => ⟨old.lin - new.lin, old.ang - new.ang⟩

theorem assign_eq (op : Op) (M : Mem K) (o : ℕ) (c : Col6 K) :
    assign op M o c = Function.update M o (comb op (M o) c) := by
  cases op <;> simp [assign, setLin, setAng, comb]

theorem forceMotionInto_eq (v : Motion K) (M : Mem K) {i o : ℕ} (h : i ≠ o) :
    forceMotionInto v M i o = Function.update M o (ofFrc (v.crossF (M i).frc)) := by
  simp [forceMotionInto, setLin, setAng, Function.update_of_ne h, ofFrc, Motion.crossF, Col6.frc]

theorem motionMotionInto_eq (v : Motion K) (M : Mem K) (i o : ℕ) :
    motionMotionInto v M i o = Function.update M o (ofMot (v.cross (M i).mot)) := by
  by_cases h : i = o
  · subst h; simp [motionMotionInto, setLin, setAng, ofMot, Motion.cross, Col6.mot]
  · simp [motionMotionInto, setLin, setAng, Function.update_of_ne h, ofMot, Motion.cross, Col6.mot]

theorem inertiaInto_eq (I : Inertia K) (M : Mem K) {i o : ℕ} (h : i ≠ o) :
    inertiaInto I M i o = Function.update M o (ofFrc (I.mul (M i).mot)) := by
  simp [inertiaInto, rhsMultInto, setLin, setAng, Function.update_of_ne h, ofFrc, Inertia.mul, Col6.mot,
    Sym3.mulVec]

theorem actForceInto_eq (f : Force K) (M : Mem K) {i o : ℕ} (h : i ≠ o) :
    actForceInto f M i o = Function.update M o (ofFrc ((M i).mot.crossF f)) := by
  simp [actForceInto, setLin, setAng, Function.update_of_ne h, ofFrc, Motion.crossF, Col6.mot]

theorem forceMotionCol_eq (op : Op) (v : Motion K) (M : Mem K) {i o : ℕ} (h : op = .setto → i ≠ o) :
    forceMotionCol op v M i o = Function.update M o (comb op (M o) (ofFrc (v.crossF (M i).frc))) := by
  cases op
  · exact forceMotionInto_eq v M (h rfl)
  · exact assign_eq .addto M o _
  · exact assign_eq .rmto M o _

theorem motionMotionCol_eq (op : Op) (v : Motion K) (M : Mem K) (i o : ℕ) :
    motionMotionCol op v M i o = Function.update M o (comb op (M o) (ofMot (v.cross (M i).mot))) := by
  cases op
  · exact motionMotionInto_eq v M i o
  · exact assign_eq .addto M o _
  · exact assign_eq .rmto M o _

theorem inertiaCol_eq (op : Op) (I : Inertia K) (M : Mem K) {i o : ℕ} (h : op = .setto → i ≠ o) :
    inertiaCol op I M i o = Function.update M o (comb op (M o) (ofFrc (I.mul (M i).mot))) := by
  cases op
  · exact inertiaInto_eq I M (h rfl)
  · exact assign_eq .addto M o _
  · exact assign_eq .rmto M o _

theorem actForceCol_eq (op : Op) (f : Force K) (M : Mem K) {i o : ℕ} (h : op = .setto → i ≠ o) :
    actForceCol op f M i o = Function.update M o (comb op (M o) (ofFrc ((M i).mot.crossF f))) := by
  cases op
  · exact actForceInto_eq f M (h rfl)
  · exact assign_eq .addto M o _
  · exact assign_eq .rmto M o _

/-- The loop over columns, when no column is written before it is read. -/
theorem cols_ok {step : Mem K → ℕ → ℕ → Mem K} {op : Op} {g : Col6 K → Col6 K} {a b n : ℕ}
    (hs : ∀ (M : Mem K) (k : ℕ), k < n →
      step M (a + k) (b + k) = Function.update M (b + k) (comb op (M (b + k)) (g (M (a + k)))))
    (hab : a + n ≤ b ∨ b ≤ a) (M : Mem K) :
    (∀ k < n, cols step a b n M (b + k) = comb op (M (b + k)) (g (M (a + k)))) ∧
    ∀ j, j < b ∨ b + n ≤ j → cols step a b n M j = M j := by
  have key : ∀ p ≤ n, (∀ k < p, cols step a b p M (b + k) = comb op (M (b + k)) (g (M (a + k)))) ∧
      ∀ j, j < b ∨ b + p ≤ j → cols step a b p M j = M j := by
    intro p
    induction p with
    | zero => exact fun _ => ⟨fun k hk => absurd hk (by omega), fun _ _ => rfl⟩
    | succ p ih =>
      intro hp
      obtain ⟨h1, h2⟩ := ih (by omega)
      have ha : cols step a b p M (a + p) = M (a + p) := h2 _ (by omega)
      have hb : cols step a b p M (b + p) = M (b + p) := h2 _ (by omega)
      have e : cols step a b (p + 1) M
          = Function.update (cols step a b p M) (b + p) (comb op (M (b + p)) (g (M (a + p)))) := by
        show step (cols step a b p M) (a + p) (b + p) = _
        rw [hs _ p (by omega), ha, hb]
      rw [e]
      refine ⟨fun k hk => ?_, fun j hj => ?_⟩
      · by_cases hkp : k = p
        · subst hkp; simp
        · rw [Function.update_of_ne (by omega)]; exact h1 k (by omega)
      · rw [Function.update_of_ne (by omega)]; exact h2 j (by omega)
  exact key n le_rfl

theorem actInvF_mul (m : SE3 K) (f : Force K) : m.toActionMatrix.tr.mulFF f = m.actInvF f := by
  ext <;> simp [SE3.toActionMatrix, M6.mulFF, SE3.actInvF, M3.ofCols, M3.col0, M3.col1, M3.col2] <;> ring
theorem cross_mul (v w : Motion K) : v.toActionMatrix.mulMM w = v.cross w := by
  ext <;> simp [Motion.toActionMatrix, M6.mulMM, Motion.cross, M3.skew] <;> ring
theorem crossF_mul (v : Motion K) (f : Force K) : v.toDualActionMatrix.mulFF f = v.crossF f := by
  ext <;> simp [Motion.toDualActionMatrix, M6.mulFF, Motion.crossF, M3.skew] <;> ring
end OnSet
end Pin
