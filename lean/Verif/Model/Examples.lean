import Verif.Model.ToSys
import Verif.Algo.Examples

/-! # A reachable model whose joints are the joint types of the library -/

namespace Pin.Ex
open Pin Model

/-- run a list of calls -/
def runJ (m : Model ℚ (Joint ℚ)) : List (Op ℚ (Joint ℚ)) → Option (Model ℚ (Joint ℚ))
  | [] => some m
  | op :: t => match m.step op with
    | some m' => runJ m' t
    | none => none

/-- the call does not add a mimic joint -/
def plainJ : Op ℚ (Joint ℚ) → Bool
  | .addJoint a => a.joint.mimic.isNone
  | _ => true

theorem reach_runJ (p0 : Joint ℚ) : ∀ (l : List (Op ℚ (Joint ℚ))) (m m' : Model ℚ (Joint ℚ)), Reach p0 m →
    l.all plainJ = true → runJ m l = some m' → Reach p0 m' := by
  intro l
  induction l with
  | nil => intro m m' h _ e; simp [runJ] at e; exact e ▸ h
  | cons op t ih =>
    intro m m' h hp e
    simp only [List.all_cons, Bool.and_eq_true] at hp
    simp only [runJ] at e
    split at e
    · rename_i m2 hs
      refine ih m2 m' (.step h ?_ hs) hp.2 e
      cases op with
      | addJoint a => intro x hx; simp [plainJ, hx] at hp
      | _ => trivial
    · simp at e

/-- arguments of an `addJoint` call for a joint type -/
def jaJ (parent : ℕ) (J : Joint ℚ) (M : SE3 ℚ) (name : String) : JointArgs ℚ (Joint ℚ) :=
  ⟨parent, ⟨J, J.nq, J.nv, J.nv, none⟩, M, name, List.replicate J.nv 7, List.replicate J.nv 6,
    List.replicate J.nq (-2), List.replicate J.nq 3, List.replicate J.nv (1/2), List.replicate J.nv (1/4)⟩

/-- the robot `sysA`, built by construction calls; a second body is attached to joint 3 -/
def opsJ : List (Op ℚ (Joint ℚ)) :=
  [.addJoint (jaJ 0 (jtA 1) mA "a"), .appendBody 1 iA mA, .addJoint (jaJ 1 (jtA 2) mA "b"), .appendBody 2 iB mB,
   .addJoint (jaJ 7 (jtA 2) mA "rejected"), .addJoint (jaJ 1 (jtA 3) mB "c"), .appendBody 3 iA mB,
   .appendBody 3 iB mA, .addJoint (jaJ 3 (jtA 4) mB "d"), .appendBody 4 iA 1]

/-- the model built by `opsJ` -/
def modA : Model ℚ (Joint ℚ) := (runJ (empty (jtA 0)) opsJ).getD (empty (jtA 0))

set_option maxRecDepth 100000 in
theorem modA_run : (runJ (empty (jtA 0)) opsJ).isSome = true := by decide +kernel

theorem modA_reach : Reach (jtA 0) modA := by
  have h := modA_run
  obtain ⟨m, hm⟩ := Option.isSome_iff_exists.1 h
  have : modA = m := by simp [modA, hm]
  rw [this]
  exact reach_runJ _ opsJ _ _ .init (by decide +kernel) hm

/-- gravity of the example -/
def gA : Motion ℚ := ⟨⟨0, 0, -981/100⟩, 0⟩

theorem modA_n : modA.njoints = 5 := by decide +kernel

theorem modA_joints : modA.joints = [⟨⟨jtA 0, 0, 0, 0, none⟩, 0, 0, 0, 0⟩,
    ⟨⟨jtA 1, 1, 1, 1, none⟩, 1, 0, 0, 0⟩, ⟨⟨jtA 2, 1, 1, 1, none⟩, 2, 1, 1, 1⟩,
    ⟨⟨jtA 3, 4, 3, 3, none⟩, 3, 2, 2, 2⟩, ⟨⟨jtA 4, 1, 1, 1, none⟩, 4, 6, 5, 5⟩] := by rfl

theorem modA_pl : modA.jointPlacements = [1, mA, mA, mB, mB] := by rfl

theorem modA_noMimic : modA.NoMimic := by
  intro i e h1 he
  rw [modA_joints] at he
  rcases i with _ | _ | _ | _ | _ | i <;> simp at he <;> subst he <;> rfl

theorem modA_jointsOk : modA.JointsOk := by
  intro i e h1 he
  rw [modA_joints] at he
  rcases i with _ | _ | _ | _ | _ | i <;> simp at he h1 <;> subst he <;>
    exact ⟨rfl, fun _ => rfl, fun x hx => by cases hx⟩

theorem modA_at : (modA.toSys (jtA 0) gA).At qA := by
  refine ⟨fun i h1 hi => ?_, fun i h1 hi => ?_⟩
  · change i < modA.njoints at hi
    rw [modA_n] at hi
    change (modA.jointPlacements.getD i 1).Valid
    rw [modA_pl]
    interval_cases i
    · exact mA_valid
    · exact mA_valid
    · exact mB_valid
    · exact mB_valid
  · change i < modA.njoints at hi
    rw [modA_n] at hi
    change ((modA.joints[i]?.map (·.desc.payload)).getD (jtA 0)).Ok
      (seg qA ((modA.joints[i]?.map (·.idx_q)).getD 0))
    rw [modA_joints]
    interval_cases i
    · exact jRevolute_ok _ _
    · exact jPrismatic_ok _ _
    · exact jSpherical_ok (by simp [seg, qA]; norm_num)
    · exact jRevoluteUnaligned_ok (by norm_num [V3.sqNorm, ax]) _

set_option maxRecDepth 100000 in
theorem modA_masses : (modA.toSys (jtA 0) gA).MassesOk := by
  intro i h1 hi
  change i < modA.njoints at hi
  rw [modA_n] at hi
  right
  change HasEps.eps ≤ (modA.inertias.getD i 0).mass
  interval_cases i <;> decide +kernel

theorem modA_check : crbaCheck (modA.toSys (jtA 0) gA).par (modA.toSys (jtA 0) gA).n = true := by
  decide +kernel

end Pin.Ex
