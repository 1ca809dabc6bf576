import Verif.LieGroup.GroupLemmas

/-! # A model with every kind of configuration space -/

namespace Pin.Ex
open Pin Model Lie

noncomputable instance : HasEps ℝ := ⟨1 / 2 ^ 52, by positivity⟩

/-- arguments of an `addJoint` call for a joint -/
def lArgs (parent : ℕ) (J : LJ) (mim : Option (ℕ × ℕ × ℕ)) (name : String) : JointArgs ℝ LJ :=
  ⟨parent, ⟨J, J.nq, J.nv, J.nv, mim⟩, 1, name, List.replicate J.nv 7, List.replicate J.nv 6,
    List.replicate J.nq (-2), List.replicate J.nq 3, List.replicate J.nv 0, List.replicate J.nv 0⟩

/-- free-flyer, unbounded revolute joint, mimic of it, composite of a planar and a ball joint, slider -/
def lCalls : List (JointArgs ℝ LJ) :=
  [lArgs 0 (.simple .se3) none "root", lArgs 1 (.simple .so2) none "wheel", lArgs 2 .mimic (some (2, 7, 6)) "mimic",
   lArgs 2 (.composite [.simple .se2, .composite [.simple .so3]]) none "multi",
   lArgs 4 (.simple (.vec 1)) none "slider"]

/-- successful admissible `addJoint` calls -/
def lRun (m : Model ℝ LJ) : List (JointArgs ℝ LJ) → Option (Model ℝ LJ)
  | [] => some m
  | a :: t =>
    if a.joint.mimic.all fun x => a.joint.nq == 0 && a.joint.nv == 0 && decide (x.1 < m.njoints) then
      match m.addJoint a with
      | .ok m' _ => lRun m' t
      | _ => none
    else none

theorem lRun_reach {p0 : LJ} : ∀ (l : List (JointArgs ℝ LJ)) (m m' : Model ℝ LJ), Reach p0 m →
    lRun m l = some m' → Reach p0 m'
  | [], m, m', h, e => by simp only [lRun, Option.some.injEq] at e; exact e ▸ h
  | a :: t, m, m', h, e => by
    rw [lRun] at e
    split at e
    · rename_i hc
      split at e
      · rename_i m2 i hm
        refine lRun_reach t m2 m' (.step h (op := .addJoint a) ?_ (by simp only [step, hm, Res.state])) e
        intro x hx
        rw [hx] at hc
        simp only [Option.all_some, Bool.and_eq_true, beq_iff_eq, decide_eq_true_eq] at hc
        exact ⟨hc.1.1, hc.1.2, hc.2⟩
      · cases e
    · cases e

/-- the model built by `lCalls` -/
noncomputable def modL : Model ℝ LJ := (lRun (empty .mimic) lCalls).getD (empty .mimic)

theorem modL_some : lRun (empty .mimic) lCalls = some modL := rfl

theorem modL_joints : modL.joints = [⟨⟨.mimic, 0, 0, 0, none⟩, 0, 0, 0, 0⟩,
    ⟨⟨.simple .se3, 7, 6, 6, none⟩, 1, 0, 0, 0⟩, ⟨⟨.simple .so2, 2, 1, 1, none⟩, 2, 7, 6, 6⟩,
    ⟨⟨.mimic, 0, 0, 0, some (2, 7, 6)⟩, 3, 7, 6, 7⟩,
    ⟨⟨.composite [.simple .se2, .composite [.simple .so3]], 8, 6, 6, none⟩, 4, 9, 7, 7⟩,
    ⟨⟨.simple (.vec 1), 1, 1, 1, none⟩, 5, 17, 13, 13⟩] := rfl

theorem modL_slots : slotsOf modL = [⟨.se3, 0, 0⟩, ⟨.so2, 7, 6⟩, ⟨.se2, 9, 7⟩, ⟨.so3, 13, 10⟩, ⟨.vec 1, 17, 13⟩] := by
  unfold slotsOf
  rw [modL_joints]
  simp [LJ.slots, LJ.slotss, LJ.nq, LJ.nv, LG.nq, LG.nv]

theorem modL_nq : modL.nq = 18 := rfl
theorem modL_nv : modL.nv = 14 := rfl

theorem modL_reach : Reach .mimic modL := lRun_reach _ _ _ .init modL_some

theorem modL_ok : PayloadOk modL := by
  intro e he
  rw [modL_joints] at he
  simp only [List.drop_succ_cons, List.drop_zero, List.mem_cons, List.not_mem_nil, or_false] at he
  rcases he with rfl | rfl | rfl | rfl | rfl
  all_goals
    refine ⟨rfl, rfl, ?_⟩
    simp

end Pin.Ex
