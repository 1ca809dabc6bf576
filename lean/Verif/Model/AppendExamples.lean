import Verif.Model.AppendReach
import Verif.Model.ReduceExamples

/-! # A robot and a gripper -/

namespace Pin.Ex
open Pin Model

/-- the robot: joints "a", "b", "c", an operational frame "tool" on "b" -/
def opsU : List (Op ℚ (Joint ℚ)) :=
  [.addJoint (jaJ 0 (jtA 1) mA "a"), .addJointFrame 1 none, .appendBody 1 iA mA,
   .addJoint (jaJ 1 (jtA 2) mA "b"), .addJointFrame 2 none, .appendBody 2 iB mB, .addBodyFrame "body_b" 2 mB none,
   .addFrame ⟨"tool", 2, 2, mB, OP_FRAME, 0⟩ true,
   .addJoint (jaJ 1 (jtA 4) mB "c"), .addJointFrame 3 none, .appendBody 3 iA mB]
def modU0 : Model ℚ (Joint ℚ) := (runJ (empty (jtA 0)) opsU).getD (empty (jtA 0))

/-- the gripper: a body on the universe, joints "x", "y", frames -/
def opsG : List (Op ℚ (Joint ℚ)) :=
  [.appendBody 0 iB mA, .addFrame ⟨"palm", 0, 0, mA, OP_FRAME, 0⟩ true,
   .addJoint (jaJ 0 (jtA 2) mB "x"), .addJointFrame 1 none, .appendBody 1 iA 1,
   .addJoint (jaJ 1 (jtA 3) mA "y"), .addJointFrame 2 none, .appendBody 2 iB mA, .addBodyFrame "finger" 2 mB none]
def modG0 : Model ℚ (Joint ℚ) := (runJ (empty (jtA 0)) opsG).getD (empty (jtA 0))

theorem modU0_reach : Reach (jtA 0) modU0 := by
  have h : (runJ (empty (jtA 0)) opsU).isSome = true := by decide +kernel
  obtain ⟨m, hm⟩ := Option.isSome_iff_exists.1 h
  have : modU0 = m := by simp [modU0, hm]
  rw [this]
  exact reach_runJ _ opsU _ _ .init (by decide +kernel) hm

theorem modG0_reach : Reach (jtA 0) modG0 := by
  have h : (runJ (empty (jtA 0)) opsG).isSome = true := by decide +kernel
  obtain ⟨m, hm⟩ := Option.isSome_iff_exists.1 h
  have : modG0 = m := by simp [modG0, hm]
  rw [this]
  exact reach_runJ _ opsG _ _ .init (by decide +kernel) hm

def paU : Params ℚ :=
  ⟨[1, 2, 3], [6, 5, 4], [1, 1, 2], [0, 1, 0], [1, 2, 3], [9, 8, 7], [1, 2, 3], [-1, -2, -3], [1, 2, 3]⟩
def paG : Params ℚ :=
  ⟨[4, 5, 6, 7], [3, 2, 1, 0], [2, 2, 3, 3], [1, 0, 1, 0], [4, 5, 6, 7], [5, 4, 3, 2], [9, 8, 7, 6], [-1, -2, -3, -4, -5], [1, 2, 3, 4, 5]⟩

def modU : Model ℚ (Joint ℚ) := modU0.setParams paU
def modG : Model ℚ (Joint ℚ) := modG0.setParams paG

theorem modU_built : Built (jtA 0) modU :=
  ⟨modU0, paU, modU0_reach, by refine ⟨?_, ?_, ?_, ?_, ?_, ?_, ?_, ?_, ?_⟩ <;> decide +kernel, rfl⟩
theorem modG_built : Built (jtA 0) modG :=
  ⟨modG0, paG, modG0_reach, by refine ⟨?_, ?_, ?_, ?_, ?_, ?_, ?_, ?_, ?_⟩ <;> decide +kernel, rfl⟩

/-- the gripper on the "tool" frame of the robot -/
def mergeU : Model ℚ (Joint ℚ) := Res.get modU (appendModel modU modG (jtA 0) 4 mA)

theorem eq_ok {S : Type*} {d : S} {r : Res S Unit} (h : Res.kind r = 0) : r = .ok (Res.get d r) () := by
  cases r <;> simp [Res.kind, Res.get] at h ⊢

theorem mergeU_run : appendModel modU modG (jtA 0) 4 mA = .ok mergeU () := eq_ok (by decide +kernel)

/-- the "tool" frame -/
def frU : Frame ℚ := ⟨"tool", 2, 2, mB, OP_FRAME, 0⟩

theorem modU_fr : modU.frames[4]? = some frU := by rfl

theorem mergeU_names : mergeU.names = ["universe", "a", "b", "x", "y", "c"] := by decide +kernel

theorem modU_n : modU.njoints = 4 := by decide +kernel
theorem modG_n : modG.njoints = 3 := by decide +kernel

theorem modU_joints : modU.joints = [⟨⟨jtA 0, 0, 0, 0, none⟩, 0, 0, 0, 0⟩,
    ⟨⟨jtA 1, 1, 1, 1, none⟩, 1, 0, 0, 0⟩, ⟨⟨jtA 2, 1, 1, 1, none⟩, 2, 1, 1, 1⟩,
    ⟨⟨jtA 4, 1, 1, 1, none⟩, 3, 2, 2, 2⟩] := by rfl
theorem modG_joints : modG.joints = [⟨⟨jtA 0, 0, 0, 0, none⟩, 0, 0, 0, 0⟩,
    ⟨⟨jtA 2, 1, 1, 1, none⟩, 1, 0, 0, 0⟩, ⟨⟨jtA 3, 4, 3, 3, none⟩, 2, 1, 1, 1⟩] := by rfl
theorem mergeU_joints : mergeU.joints = [⟨⟨jtA 0, 0, 0, 0, none⟩, 0, 0, 0, 0⟩,
    ⟨⟨jtA 1, 1, 1, 1, none⟩, 1, 0, 0, 0⟩, ⟨⟨jtA 2, 1, 1, 1, none⟩, 2, 1, 1, 1⟩,
    ⟨⟨jtA 2, 1, 1, 1, none⟩, 3, 2, 2, 2⟩, ⟨⟨jtA 3, 4, 3, 3, none⟩, 4, 3, 3, 3⟩,
    ⟨⟨jtA 4, 1, 1, 1, none⟩, 5, 7, 6, 6⟩] := by rfl
theorem modU_pl : modU.jointPlacements = [1, mA, mA, mB] := by rfl
theorem modG_pl : modG.jointPlacements = [1, mB, mA] := by rfl

theorem modU_noMimic : modU.NoMimic := by
  intro i e h1 he
  rw [modU_joints] at he
  rcases i with _ | _ | _ | _ | i <;> simp at he <;> subst he <;> rfl
theorem modG_noMimic : modG.NoMimic := by
  intro i e h1 he
  rw [modG_joints] at he
  rcases i with _ | _ | _ | i <;> simp at he <;> subst he <;> rfl

theorem modU_jointsOk : modU.JointsOk := by
  intro i e h1 he
  rw [modU_joints] at he
  rcases i with _ | _ | _ | _ | i <;> simp at he h1 <;> subst he <;>
    exact ⟨rfl, fun _ => rfl, fun x hx => by cases hx⟩
theorem modG_jointsOk : modG.JointsOk := by
  intro i e h1 he
  rw [modG_joints] at he
  rcases i with _ | _ | _ | i <;> simp at he h1 <;> subst he <;>
    exact ⟨rfl, fun _ => rfl, fun x hx => by cases hx⟩

/-- configurations of the robot, of the gripper and of both -/
def qU : ℕ → ℚ := fun k => [1/3, 1/2, 1/4].getD k 0
def qG : ℕ → ℚ := fun k => [2, 0, 3/5, 0, 4/5].getD k 0
def qM : ℕ → ℚ := fun k => [1/3, 1/2, 2, 0, 3/5, 0, 4/5, 1/4].getD k 0
/-- velocities -/
def vU : ℕ → ℚ := fun k => [1, 2, 3].getD k 0
def vG : ℕ → ℚ := fun k => [4, 5, 6, 7].getD k 0
def vM : ℕ → ℚ := fun k => [1, 2, 4, 5, 6, 7, 3].getD k 0

theorem modU_local (g : Motion ℚ) : ∀ i, 1 ≤ i → i < modU.njoints → ((modU.toSys (jtA 0) g).jt i).Local := by
  intro i h1 hi
  rw [modU_n] at hi
  change ((modU.joints[i]?.map (·.desc.payload)).getD (jtA 0)).Local
  rw [modU_joints]
  interval_cases i
  · exact jRevolute_local _
  · exact jPrismatic_local _
  · exact jRevoluteUnaligned_local _
theorem modG_local (g : Motion ℚ) : ∀ i, 1 ≤ i → i < modG.njoints → ((modG.toSys (jtA 0) g).jt i).Local := by
  intro i h1 hi
  rw [modG_n] at hi
  change ((modG.joints[i]?.map (·.desc.payload)).getD (jtA 0)).Local
  rw [modG_joints]
  interval_cases i
  · exact jPrismatic_local _
  · exact jSpherical_local

theorem modU_at (g : Motion ℚ) : (modU.toSys (jtA 0) g).At qU := by
  refine ⟨fun i h1 hi => ?_, fun i h1 hi => ?_⟩
  · change i < modU.njoints at hi
    rw [modU_n] at hi
    change (modU.jointPlacements.getD i 1).Valid
    rw [modU_pl]
    interval_cases i
    · exact mA_valid
    · exact mA_valid
    · exact mB_valid
  · change i < modU.njoints at hi
    rw [modU_n] at hi
    change ((modU.joints[i]?.map (·.desc.payload)).getD (jtA 0)).Ok
      (seg qU ((modU.joints[i]?.map (·.idx_q)).getD 0))
    rw [modU_joints]
    interval_cases i
    · exact jRevolute_ok _ _
    · exact jPrismatic_ok _ _
    · exact jRevoluteUnaligned_ok (by norm_num [V3.sqNorm, ax]) _
theorem modG_at (g : Motion ℚ) : (modG.toSys (jtA 0) g).At qG := by
  refine ⟨fun i h1 hi => ?_, fun i h1 hi => ?_⟩
  · change i < modG.njoints at hi
    rw [modG_n] at hi
    change (modG.jointPlacements.getD i 1).Valid
    rw [modG_pl]
    interval_cases i
    · exact mB_valid
    · exact mA_valid
  · change i < modG.njoints at hi
    rw [modG_n] at hi
    change ((modG.joints[i]?.map (·.desc.payload)).getD (jtA 0)).Ok
      (seg qG ((modG.joints[i]?.map (·.idx_q)).getD 0))
    rw [modG_joints]
    interval_cases i
    · exact jPrismatic_ok _ _
    · exact jSpherical_ok (by simp [seg, qG]; norm_num)

theorem inU : ∀ i < 4, inA modU mergeU i = [0, 1, 2, 5].getD i 0 := by decide +kernel
theorem inG : ∀ i < 3, inB modU modG mergeU 2 i = [2, 3, 4].getD i 0 := by decide +kernel

theorem sameQU (g : Motion ℚ) : (modU.toSys (jtA 0) g).SameQ (mergeU.toSys (jtA 0) g) (inA modU mergeU) qU qM := by
  intro i h1 hi k hk
  change i < modU.njoints at hi
  rw [modU_n] at hi
  change k < ((modU.joints[i]?.map (·.desc.payload)).getD (jtA 0)).nq at hk
  change qM ((mergeU.joints[inA modU mergeU i]?.map (·.idx_q)).getD 0 + k) = qU ((modU.joints[i]?.map (·.idx_q)).getD 0 + k)
  rw [modU_joints] at hk ⊢
  rw [mergeU_joints, inU i hi]
  interval_cases i <;> (have : k < 1 := hk) <;> interval_cases k <;> rfl
theorem sameQG (g : Motion ℚ) : (modG.toSys (jtA 0) g).SameQ (mergeU.toSys (jtA 0) g) (inB modU modG mergeU frU.parentJoint) qG qM := by
  intro i h1 hi k hk
  change i < modG.njoints at hi
  rw [modG_n] at hi
  change k < ((modG.joints[i]?.map (·.desc.payload)).getD (jtA 0)).nq at hk
  change qM ((mergeU.joints[inB modU modG mergeU 2 i]?.map (·.idx_q)).getD 0 + k) = qG ((modG.joints[i]?.map (·.idx_q)).getD 0 + k)
  rw [modG_joints] at hk ⊢
  rw [mergeU_joints, inG i hi]
  interval_cases i
  · have : k < 1 := hk
    interval_cases k; rfl
  · have : k < 4 := hk
    interval_cases k <;> rfl
theorem sameVU (g : Motion ℚ) : (modU.toSys (jtA 0) g).SameV (mergeU.toSys (jtA 0) g) (inA modU mergeU) vU vM := by
  intro i h1 hi k hk
  change i < modU.njoints at hi
  rw [modU_n] at hi
  change k < ((modU.joints[i]?.map (·.desc.payload)).getD (jtA 0)).nv at hk
  change vM ((mergeU.joints[inA modU mergeU i]?.map (·.idx_v)).getD 0 + k) = vU ((modU.joints[i]?.map (·.idx_v)).getD 0 + k)
  rw [modU_joints] at hk ⊢
  rw [mergeU_joints, inU i hi]
  interval_cases i <;> (have : k < 1 := hk) <;> interval_cases k <;> rfl
theorem sameVG (g : Motion ℚ) : (modG.toSys (jtA 0) g).SameV (mergeU.toSys (jtA 0) g) (inB modU modG mergeU frU.parentJoint) vG vM := by
  intro i h1 hi k hk
  change i < modG.njoints at hi
  rw [modG_n] at hi
  change k < ((modG.joints[i]?.map (·.desc.payload)).getD (jtA 0)).nv at hk
  change vM ((mergeU.joints[inB modU modG mergeU 2 i]?.map (·.idx_v)).getD 0 + k) = vG ((modG.joints[i]?.map (·.idx_v)).getD 0 + k)
  rw [modG_joints] at hk ⊢
  rw [mergeU_joints, inG i hi]
  interval_cases i
  · have : k < 1 := hk
    interval_cases k; rfl
  · have : k < 3 := hk
    interval_cases k <;> rfl

/-! ## models on which the call goes wrong -/

/-- the call is admissible -/
def okJ (m : Model ℚ (Joint ℚ)) : Op ℚ (Joint ℚ) → Bool
  | .addJoint a => match a.joint.mimic with
    | none => true
    | some x => a.joint.nq == 0 && a.joint.nv == 0 && decide (x.1 < m.njoints)
  | _ => true

/-- run a list of calls, all admissible -/
def runOk (m : Model ℚ (Joint ℚ)) : List (Op ℚ (Joint ℚ)) → Option (Model ℚ (Joint ℚ))
  | [] => some m
  | op :: t => if okJ m op then
      match m.step op with
      | some m' => runOk m' t
      | none => none
    else none

theorem reach_runOk (p0 : Joint ℚ) : ∀ (l : List (Op ℚ (Joint ℚ))) (m m' : Model ℚ (Joint ℚ)), Reach p0 m →
    runOk m l = some m' → Reach p0 m' := by
  intro l
  induction l with
  | nil => intro m m' h e; simp [runOk] at e; exact e ▸ h
  | cons op t ih =>
    intro m m' h e
    simp only [runOk] at e
    split at e
    · rename_i hok
      split at e
      · rename_i m2 hs
        refine ih m2 m' (.step h ?_ hs) e
        cases op with
        | addJoint a =>
          intro x hx
          simp only [okJ, hx, Bool.and_eq_true, beq_iff_eq, decide_eq_true_eq] at hok
          exact ⟨hok.1.1, hok.1.2, hok.2⟩
        | _ => trivial
      · cases e
    · cases e

theorem reach_getD (l : List (Op ℚ (Joint ℚ))) (h : (runOk (empty (jtA 0)) l).isSome = true) :
    Reach (jtA 0) ((runOk (empty (jtA 0)) l).getD (empty (jtA 0))) := by
  obtain ⟨m, hm⟩ := Option.isSome_iff_exists.1 h
  rw [hm]
  exact reach_runOk _ l _ _ .init hm

/-- the parameters of a model -/
def paramsOf (m : Model ℚ (Joint ℚ)) : Params ℚ :=
  ⟨m.armature, m.rotorInertia, m.rotorGearRatio, m.friction, m.damping, m.effortLimit, m.velocityLimit, m.lowerPositionLimit,
    m.upperPositionLimit⟩

theorem Reach.built {p0 : Joint ℚ} {m : Model ℚ (Joint ℚ)} (h : Reach p0 m) : Built p0 m := by
  have l := h.inv.lens
  exact ⟨m, paramsOf m, h, ⟨l.armature, l.rotorInertia, l.rotorGearRatio, l.friction, l.damping, l.effortLimit, l.velocityLimit,
    l.lowerPositionLimit, l.upperPositionLimit⟩, rfl⟩

/-- a body frame has the name of a joint -/
def opsN : List (Op ℚ (Joint ℚ)) :=
  [.addJoint (jaJ 0 (jtA 1) mA "a"), .addJointFrame 1 none, .appendBody 1 iA mA, .addBodyFrame "a" 1 mB none,
   .addFrame ⟨"tool", 1, 1, mB, OP_FRAME, 0⟩ true]
def modN : Model ℚ (Joint ℚ) := (runOk (empty (jtA 0)) opsN).getD (empty (jtA 0))
theorem modN_built : Built (jtA 0) modN := Reach.built (reach_getD opsN (by decide +kernel))

/-- joint "c", child of "a", mimics "b", which hangs from the universe -/
def opsC : List (Op ℚ (Joint ℚ)) :=
  [.addJoint (jaJ 0 (jtA 1) mA "a"), .addJointFrame 1 none, .addJoint (jaJ 0 (jtA 1) mA "b"), .addJointFrame 2 none,
   .addJoint ⟨1, ⟨jtA 1, 0, 0, 1, some (2, 1, 1)⟩, mB, "c", [], [], [], [], [], []⟩, .addJointFrame 3 none]
def modC : Model ℚ (Joint ℚ) := (runOk (empty (jtA 0)) opsC).getD (empty (jtA 0))
theorem modC_built : Built (jtA 0) modC := Reach.built (reach_getD opsC (by decide +kernel))

end Pin.Ex

namespace Pin.Ex
open Pin Model
def frN : Frame ℚ := ⟨"tool", 1, 1, mB, OP_FRAME, 0⟩
def frC : Frame ℚ := ⟨"a", 1, 0, 1, JOINT, 0⟩
end Pin.Ex
