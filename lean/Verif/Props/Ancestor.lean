import Verif.Model.AncestorLemmas
import Verif.Model.ToSys
import Verif.Algo.Passes
import Verif.Props.Construction
import Verif.Model.Examples

/-!
# C36, C47: common ancestors and relative placements

`Anc parents i j`: joint `i` is joint `j` or one of its ancestors (`Verif/Model/ReachLemmas.lean`).
-/

namespace Pin
open Model
variable {K : Type*} [Field K] [LinearOrder K] [HasEps K]

/-- **`findCommonAncestor` returns the deepest common ancestor**: it never fails on joints of the model, the
result is an ancestor of both, every other common ancestor is an ancestor of it, and the two reported positions
are its positions in the two supports. -/
theorem C36_common_ancestor {P : Type*} {p0 : P} {m : Model K P} (h : Reach p0 m) {j1 j2 : ℕ} (h1 : j1 < m.njoints)
    (h2 : j2 < m.njoints) :
    ∃ a i1 i2, m.findCommonAncestor j1 j2 = .ok () (a, i1, i2) ∧
      Anc m.parents a j1 ∧ Anc m.parents a j2 ∧
      (∀ b, Anc m.parents b j1 → Anc m.parents b j2 → Anc m.parents b a) ∧
      (m.supports.getD j1 [])[i1]? = some a ∧ (m.supports.getD j2 [])[i2]? = some a := by
  have hi := h.inv
  obtain ⟨a, i1, i2, e, e1, e2, hle⟩ := findCommonAncestor_ok hi h1 h2
  have ha1 := (mem_supports_iff hi a j1 h1).1 (List.mem_of_getElem? e1)
  have ha2 := (mem_supports_iff hi a j2 h2).1 (List.mem_of_getElem? e2)
  refine ⟨a, i1, i2, e, ha1, ha2, fun b hb1 hb2 => ?_, e1, e2⟩
  exact Anc.total hi j1 h1 ha1 hb1 (hle b ((mem_supports_iff hi b j1 h1).2 hb1) ((mem_supports_iff hi b j2 h2).2 hb2))

/-- an index that is not a joint of the model is rejected -/
theorem C36_rejects {P : Type*} (m : Model K P) (j1 j2 : ℕ) (h : m.njoints ≤ j1 ∨ m.njoints ≤ j2) :
    m.findCommonAncestor j1 j2 = .throw () := by
  unfold findCommonAncestor
  split
  · rfl
  · rw [if_pos (by omega)]

example : Ex.exM.findCommonAncestor 4 2 = .ok () (2, 2, 2) ∧ Ex.exM.findCommonAncestor 3 4 = .ok () (0, 0, 0) ∧
    Ex.exM.findCommonAncestor 5 1 = .throw () := by
  have e : Ex.exM.supports = [[0], [0, 1], [0, 1, 2], [0, 3], [0, 1, 2, 4]] := by decide +kernel
  have n : Ex.exM.njoints = 5 := by decide +kernel
  refine ⟨?_, ?_, ?_⟩ <;> simp [findCommonAncestor, e, n, caLoop]

/-- **Relative placements do not depend on the convention**: after `forwardKinematics`, whatever the previous
content of `data` (its world placement of the universe being the identity set by the constructor), both
conventions of `getRelativePlacement` return the inverse of the placement of the reference joint times the
placement of the target joint. -/
theorem C47_relative_placement {p0 : Joint K} {m : Model K (Joint K)} (h : Reach p0 m) (j0 : Joint K) (g : Motion K)
    (d0 : Data K) (hd0 : d0.oMi 0 = 1) {q : ℕ → K} (hq : (m.toSys j0 g).At q) {r t : ℕ} (hr : r < m.njoints)
    (ht : t < m.njoints) (c : Conv) :
    m.getRelativePlacement (forwardKinematics (m.toSys j0 g) d0 q).liMi (forwardKinematics (m.toSys j0 g) d0 q).oMi
      r t c = .ok () (((m.toSys j0 g).oM q r).inv * (m.toSys j0 g).oM q t) := by
  have hi := h.inv
  have hp : ParOk (m.toSys j0 g).par (m.toSys j0 g).n := toSys_parOk hi j0 g
  have hpl := fk0_ok hp d0 q
  have h0 : (forwardKinematics (m.toSys j0 g) d0 q).oMi 0 = 1 := by
    unfold forwardKinematics
    apply fwd_ind (P := fun _ (d : Data K) => d.oMi 0 = 1) hp.1 hd0
    intro i d h1 _ ih
    change upd d.oMi i _ 0 = 1
    rw [upd_ne _ _ (by omega)]; exact ih
  generalize forwardKinematics (m.toSys j0 g) d0 q = d at hpl h0
  have hoM : ∀ j, j < m.njoints → d.oMi j = (m.toSys j0 g).oM q j := by
    intro j hj
    rcases Nat.eq_zero_or_pos j with rfl | h1
    · rw [h0, Sys.oM_zero]
    · exact (hpl j h1 hj).2.1
  cases c with
  | WORLD =>
    unfold getRelativePlacement
    rw [hoM r hr, hoM t ht, actInvSE3_eq]
  | LOCAL =>
    have hstep : ∀ j, 1 ≤ j → j < m.njoints →
        (m.toSys j0 g).oM q j = (m.toSys j0 g).oM q (m.parents.getD j 0) * d.liMi j := by
      intro j h1 hj
      rw [(hpl j h1 hj).1]
      exact Sys.oM_step _ h1 (hi.par j h1 hj)
    obtain ⟨a, ir, it, e, e1, e2, -⟩ := findCommonAncestor_ok hi hr ht
    have n1 := List.length_pos_of_ne_nil (supports_ne_nil hi r hr)
    have n2 := List.length_pos_of_ne_nil (supports_ne_nil hi t ht)
    have l1 := (List.getElem?_eq_some_iff.1 e1).1
    have l2 := (List.getElem?_eq_some_iff.1 e2).1
    obtain ⟨Mr, c1, m1⟩ := climb_ok hi hstep hr e1 ((m.supports.getD r []).length - 1) 1 r (by omega)
      (supports_last hi hr) (SE3.mul_one _)
    obtain ⟨Mt, c2, m2⟩ := climb_ok hi hstep ht e2 ((m.supports.getD t []).length - 1) 1 t (by omega)
      (supports_last hi ht) (SE3.mul_one _)
    rw [Nat.sub_add_cancel n1] at c1
    rw [Nat.sub_add_cancel n2] at c2
    unfold getRelativePlacement
    rw [e, supports_get hi hr, supports_get hi ht]
    dsimp only
    rw [c1, c2]
    dsimp only
    have ha : a < m.njoints := by
      have := mem_supports_le hi r hr a (List.mem_of_getElem? e1)
      omega
    rw [← m1, ← m2, ← actInvSE3_eq, actInvSE3_left (Sys.oM_valid _ hp hq a ha)]

/-- the robot of the examples, built by construction calls: both conventions agree between joints of two branches -/
example (c : Conv) :
    Ex.modA.getRelativePlacement (forwardKinematics (Ex.modA.toSys (Ex.jtA 0) Ex.gA) Data.zero Ex.qA).liMi (forwardKinematics (Ex.modA.toSys (Ex.jtA 0) Ex.gA) Data.zero Ex.qA).oMi
      2 4 c = .ok () (((Ex.modA.toSys (Ex.jtA 0) Ex.gA).oM Ex.qA 2).inv * (Ex.modA.toSys (Ex.jtA 0) Ex.gA).oM Ex.qA 4) :=
  C47_relative_placement Ex.modA_reach (Ex.jtA 0) Ex.gA Data.zero rfl Ex.modA_at (by rw [Ex.modA_n]; decide)
    (by rw [Ex.modA_n]; decide) c

end Pin
