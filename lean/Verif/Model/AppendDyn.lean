import Verif.Model.ReduceDyn
import Verif.Spec.Append

/-! # Kinematics of a tree that contains a copy of another tree -/

set_option linter.unusedSectionVars false
set_option linter.unusedVariables false

namespace Pin
open Finset
variable {K : Type*} [CommRing K]

/-- `r` contains the joints of `s`, through `φ`; the universe of `s` is at `base` in `φ 0` -/
structure Sys.Embedded (s r : Sys K) (φ : ℕ → ℕ) (base : SE3 K) : Prop where
  par : ParOk s.par s.n
  rparOk : ParOk r.par r.n
  range : ∀ i, 1 ≤ i → i < s.n → 1 ≤ φ i ∧ φ i < r.n
  rpar : ∀ i, 1 ≤ i → i < s.n → r.par (φ i) = φ (s.par i)
  rpl : ∀ i, 1 ≤ i → i < s.n → r.pl (φ i) = if s.par i = 0 then base * s.pl i else s.pl i
  rjt : ∀ i, 1 ≤ i → i < s.n → r.jt (φ i) = s.jt i

namespace Sys.Embedded
variable {s r : Sys K} {φ : ℕ → ℕ} {base : SE3 K} {q q' v v' w w' : ℕ → K}
variable (h : Sys.Embedded s r φ base) (hl : ∀ i, 1 ≤ i → i < s.n → (s.jt i).Local) (hc : s.SameQ r φ q q')
include h hl hc

theorem X_eq {i : ℕ} (h1 : 1 ≤ i) (hi : i < s.n) : r.X q' (φ i) = if s.par i = 0 then base * s.X q i else s.X q i := by
  have e : (s.jt i).M (r.qs q' (φ i)) = (s.jt i).M (s.qs q i) := (hl i h1 hi).M _ _ (fun k hk => hc i h1 hi k hk)
  unfold Sys.X
  rw [h.rpl i h1 hi, h.rjt i h1 hi, e]
  split
  · rw [SE3.mul_assoc]
  · rfl

theorem oM_eq : ∀ i, i < s.n → 1 ≤ i → r.oM q' (φ i) = r.oM q' (φ 0) * base * s.oM q i := by
  intro i hi
  refine s.joint_ind h.par (P := fun i => 1 ≤ i → r.oM q' (φ i) = r.oM q' (φ 0) * base * s.oM q i) ?_ ?_ i hi <;> clear hi i
  · intro h0; omega
  · intro i h1 hi ih _
    have hp := h.par.2 i h1 hi
    obtain ⟨r1, r2⟩ := h.range i h1 hi
    have hrp := h.rparOk.2 _ r1 r2
    rw [s.oM_step h1 hp, r.oM_step r1 hrp, h.rpar i h1 hi, X_eq h hl hc h1 hi]
    by_cases hz : s.par i = 0
    · rw [if_pos hz, hz, Sys.oM_zero, SE3.one_mul, SE3.mul_assoc]
    · rw [if_neg hz, ih (Nat.one_le_iff_ne_zero.2 hz)]
      simp only [SE3.mul_assoc]

theorem jvel_eq (hv : s.SameV r φ v v') {i : ℕ} (h1 : 1 ≤ i) (hi : i < s.n) : r.jvel q' v' (φ i) = s.jvel q v i := by
  have e : r.S q' (φ i) = s.S q i := by
    unfold Sys.S
    rw [h.rjt i h1 hi]
    exact (hl i h1 hi).S _ _ (fun k hk => hc i h1 hi k hk)
  have e2 : r.jnv (φ i) = s.jnv i := by unfold Sys.jnv; rw [h.rjt i h1 hi]
  unfold Sys.jvel
  rw [e, e2]
  exact comb_congr (fun _ _ => rfl) (fun k hk => hv i h1 hi k hk)

theorem V_eq (hq : s.At q) (hb : base.Valid) (hv : s.SameV r φ v v') : ∀ i, i < s.n → 1 ≤ i →
    r.V q' v' (φ i) = s.V q v i + (base * s.oM q i).actInv (r.V q' v' (φ 0)) := by
  intro i hi
  refine s.joint_ind h.par (P := fun i => 1 ≤ i → r.V q' v' (φ i) = s.V q v i + (base * s.oM q i).actInv (r.V q' v' (φ 0)))
    ?_ ?_ i hi <;> clear hi i
  · intro h0; omega
  · intro i h1 hi ih _
    have hp := h.par.2 i h1 hi
    obtain ⟨r1, r2⟩ := h.range i h1 hi
    have hrp := h.rparOk.2 _ r1 r2
    rw [s.oM_step h1 hp, s.V_step h1 hp, r.V_step r1 hrp, h.rpar i h1 hi, X_eq h hl hc h1 hi, jvel_eq h hl hc hv h1 hi]
    by_cases hz : s.par i = 0
    · rw [if_pos hz, hz, Sys.oM_zero, SE3.one_mul, Sys.V_zero, SE3.actInv_zero, add_zero]
    · rw [if_neg hz, ih (Nat.one_le_iff_ne_zero.2 hz), SE3.actInv_add, ← SE3.mul_assoc, add_assoc,
        SE3.mul_actInv (hb.mul (s.oM_valid h.par hq _ (by omega))) (s.X_valid hq h1 hi)]

end Sys.Embedded
end Pin
