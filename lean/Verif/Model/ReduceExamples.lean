import Verif.Model.ReduceReach
import Verif.Model.Examples

/-! # A model with frames, reduced -/

namespace Pin.Ex
open Pin Model

/-- the robot `sysA` with the frames of its joints, one body frame and one operational frame -/
def opsR : List (Op ℚ (Joint ℚ)) :=
  [.addJoint (jaJ 0 (jtA 1) mA "a"), .addJointFrame 1 none, .appendBody 1 iA mA,
   .addJoint (jaJ 1 (jtA 2) mA "b"), .addJointFrame 2 none, .appendBody 2 iB mB, .addBodyFrame "body_b" 2 mB none,
   .addJoint (jaJ 1 (jtA 3) mB "c"), .addJointFrame 3 none, .appendBody 3 iA mB, .addBodyFrame "body_c" 3 mA none,
   .addJoint (jaJ 3 (jtA 4) mB "d"), .addJointFrame 4 none, .appendBody 4 iA 1,
   .addFrame ⟨"tool", 3, 4, mB, OP_FRAME, iB⟩ true]

def modR0 : Model ℚ (Joint ℚ) := (runJ (empty (jtA 0)) opsR).getD (empty (jtA 0))

theorem modR0_reach : Reach (jtA 0) modR0 := by
  have h : (runJ (empty (jtA 0)) opsR).isSome = true := by decide +kernel
  obtain ⟨m, hm⟩ := Option.isSome_iff_exists.1 h
  have : modR0 = m := by simp [modR0, hm]
  rw [this]
  exact reach_runJ _ opsR _ _ .init (by decide +kernel) hm

/-- parameters set after construction -/
def paR : Params ℚ :=
  ⟨[1, 2, 3, 4, 5, 6], [6, 5, 4, 3, 2, 1], [1, 1, 1, 2, 2, 2], [0, 1, 0, 1, 0, 1], [1, 2, 3, 1, 2, 3], [9, 8, 7, 6, 5, 4],
    [1, 2, 3, 4, 5, 6], [-1, -2, -3, -4, -5, -6, -7], [1, 2, 3, 4, 5, 6, 7]⟩

def modR : Model ℚ (Joint ℚ) := modR0.setParams paR

theorem modR_built : Built (jtA 0) modR :=
  ⟨modR0, paR, modR0_reach, by refine ⟨?_, ?_, ?_, ?_, ?_, ?_, ?_, ?_, ?_⟩ <;> decide +kernel, rfl⟩

/-- reference configuration -/
def qrefR : List ℚ := [1/3, 1/2, 0, 3/5, 0, 4/5, 1/4]
/-- the joints to lock, not sorted -/
def lockR : List ℕ := [3, 1]

def redR : Model ℚ (Joint ℚ) :=
  match buildReducedModel modR (jtA 0) lockR qrefR with
  | .ok m _ => m
  | _ => modR

theorem redR_run : buildReducedModel modR (jtA 0) lockR qrefR = .ok redR () := by
  have h : (match buildReducedModel modR (jtA 0) lockR qrefR with
    | .ok _ _ => true
    | _ => false) = true := by decide +kernel
  unfold redR
  split at h
  · rename_i m u e; rw [e]
  · cases h

theorem modR_n : modR.njoints = 5 := by decide +kernel

theorem modR_joints : modR.joints = [⟨⟨jtA 0, 0, 0, 0, none⟩, 0, 0, 0, 0⟩,
    ⟨⟨jtA 1, 1, 1, 1, none⟩, 1, 0, 0, 0⟩, ⟨⟨jtA 2, 1, 1, 1, none⟩, 2, 1, 1, 1⟩,
    ⟨⟨jtA 3, 4, 3, 3, none⟩, 3, 2, 2, 2⟩, ⟨⟨jtA 4, 1, 1, 1, none⟩, 4, 6, 5, 5⟩] := by rfl

theorem modR_reducible : Reducible modR lockR := by
  have hn := modR_n
  refine ⟨by decide +kernel, ?_, fun i hi => ?_, by decide⟩
  · have : ∀ f ∈ modR.frames, FIXED_JOINT &&& f.type ≠ 0 → ∀ i, i < 5 → 1 ≤ i → f.name ≠ modR.name i := by decide +kernel
    intro f hf ht i h1 hi
    exact this f hf ht i (hn ▸ hi) h1
  · have : ∀ i, i < 5 → 0 ≤ (modR.inertia i).mass ∧ ((modR.inertia i).mass = 0 ∨ (HasEps.eps : ℚ) ≤ (modR.inertia i).mass) := by
      decide +kernel
    exact this i (hn ▸ hi)

theorem modR_framesOk : FramesOk modR := by
  have hn := modR_n
  refine ⟨by decide +kernel, ?_⟩
  have : ∀ f ∈ modR.frames, ∀ i, i < 5 → 1 ≤ i → f.name = modR.name i → f.parentJoint = i := by decide +kernel
  intro f hf i h1 hi
  exact this f hf i (hn ▸ hi) h1

theorem modR_pl : modR.jointPlacements = [1, mA, mA, mB, mB] := by rfl

theorem modR_noMimic : modR.NoMimic := by
  intro i e h1 he
  rw [modR_joints] at he
  rcases i with _ | _ | _ | _ | _ | i <;> simp at he <;> subst he <;> rfl

theorem modR_jointsOk : modR.JointsOk := by
  intro i e h1 he
  rw [modR_joints] at he
  rcases i with _ | _ | _ | _ | _ | i <;> simp at he h1 <;> subst he <;>
    exact ⟨rfl, fun _ => rfl, fun x hx => by cases hx⟩

/-- a configuration where the locked joints are at the reference -/
def qR : ℕ → ℚ := fun k => [1/3, 7/2, 0, 3/5, 0, 4/5, 9/4].getD k 0
/-- the same one for the reduced model -/
def qR' : ℕ → ℚ := fun k => [7/2, 9/4].getD k 0
def vR : ℕ → ℚ := fun k => [0, 2, 0, 0, 0, 3].getD k 0
def vR' : ℕ → ℚ := fun k => [2, 3].getD k 0

theorem modR_at : (modR.toSys (jtA 0) gA).At qR := by
  refine ⟨fun i h1 hi => ?_, fun i h1 hi => ?_⟩
  · change i < modR.njoints at hi
    rw [modR_n] at hi
    change (modR.jointPlacements.getD i 1).Valid
    rw [modR_pl]
    interval_cases i
    · exact mA_valid
    · exact mA_valid
    · exact mB_valid
    · exact mB_valid
  · change i < modR.njoints at hi
    rw [modR_n] at hi
    change ((modR.joints[i]?.map (·.desc.payload)).getD (jtA 0)).Ok
      (seg qR ((modR.joints[i]?.map (·.idx_q)).getD 0))
    rw [modR_joints]
    interval_cases i
    · exact jRevolute_ok _ _
    · exact jPrismatic_ok _ _
    · exact jSpherical_ok (by simp [seg, qR]; norm_num)
    · exact jRevoluteUnaligned_ok (by norm_num [V3.sqNorm, ax]) _

theorem modR_local : ∀ i, 1 ≤ i → i < modR.njoints → ((modR.toSys (jtA 0) gA).jt i).Local := by
  intro i h1 hi
  rw [modR_n] at hi
  change ((modR.joints[i]?.map (·.desc.payload)).getD (jtA 0)).Local
  rw [modR_joints]
  interval_cases i
  · exact jRevolute_local _
  · exact jPrismatic_local _
  · exact jSpherical_local
  · exact jRevoluteUnaligned_local _

theorem redR_joints : redR.joints = [⟨⟨jtA 0, 0, 0, 0, none⟩, 0, 0, 0, 0⟩,
    ⟨⟨jtA 2, 1, 1, 1, none⟩, 1, 0, 0, 0⟩, ⟨⟨jtA 4, 1, 1, 1, none⟩, 2, 1, 1, 1⟩] := by rfl

theorem sameR (x x' : ℕ → ℚ) (b : ∀ k, k < 4 → x (2 + k) = qrefR.getD (2 + k) 0) (c : x 0 = qrefR.getD 0 0) (d : x' 0 = x 1)
    (e : x' 1 = x 6) :
    (modR.toSys (jtA 0) gA).SameConfig (redR.toSys (jtA 0) gA) lockR (fun k => qrefR.getD k 0) x x' := by
  refine ⟨fun i h1 hi hL k hk => ?_, fun i h1 hi hL k hk => ?_⟩
  · change i < modR.njoints at hi
    rw [modR_n] at hi
    change k < ((modR.joints[i]?.map (·.desc.payload)).getD (jtA 0)).nq at hk
    change x' ((redR.joints[rank lockR i]?.map (·.idx_q)).getD 0 + k) = x ((modR.joints[i]?.map (·.idx_q)).getD 0 + k)
    rw [modR_joints] at hk ⊢
    rw [redR_joints]
    interval_cases i
    · exact absurd (by decide) hL
    · have : k < 1 := hk
      interval_cases k; exact d
    · exact absurd (by decide) hL
    · have : k < 1 := hk
      interval_cases k; exact e
  · change i < modR.njoints at hi
    rw [modR_n] at hi
    change k < ((modR.joints[i]?.map (·.desc.payload)).getD (jtA 0)).nq at hk
    change x ((modR.joints[i]?.map (·.idx_q)).getD 0 + k) = qrefR.getD ((modR.joints[i]?.map (·.idx_q)).getD 0 + k) 0
    rw [modR_joints] at hk ⊢
    interval_cases i
    · have : k < 1 := hk
      interval_cases k; exact c
    · exact absurd hL (by decide)
    · exact b k hk
    · exact absurd hL (by decide)

theorem sameVR (x x' : ℕ → ℚ) (b : ∀ k, k < 3 → x (2 + k) = 0) (c : x 0 = 0) (d : x' 0 = x 1)
    (e : x' 1 = x 5) : (modR.toSys (jtA 0) gA).SameVel (redR.toSys (jtA 0) gA) lockR x x' := by
  refine ⟨fun i h1 hi hL k hk => ?_, fun i h1 hi hL k hk => ?_⟩
  · change i < modR.njoints at hi
    rw [modR_n] at hi
    change k < ((modR.joints[i]?.map (·.desc.payload)).getD (jtA 0)).nv at hk
    change x' ((redR.joints[rank lockR i]?.map (·.idx_v)).getD 0 + k) = x ((modR.joints[i]?.map (·.idx_v)).getD 0 + k)
    rw [modR_joints] at hk ⊢
    rw [redR_joints]
    interval_cases i
    · exact absurd (by decide) hL
    · have : k < 1 := hk
      interval_cases k; exact d
    · exact absurd (by decide) hL
    · have : k < 1 := hk
      interval_cases k; exact e
  · change i < modR.njoints at hi
    rw [modR_n] at hi
    change k < ((modR.joints[i]?.map (·.desc.payload)).getD (jtA 0)).nv at hk
    change x ((modR.joints[i]?.map (·.idx_v)).getD 0 + k) = 0
    rw [modR_joints] at hk ⊢
    interval_cases i
    · have : k < 1 := hk
      interval_cases k; exact c
    · exact absurd hL (by decide)
    · exact b k hk
    · exact absurd hL (by decide)

theorem modR_same : (modR.toSys (jtA 0) gA).SameConfig (redR.toSys (jtA 0) gA) lockR (fun k => qrefR.getD k 0) qR qR' :=
  sameR qR qR' (by decide +kernel) (by decide +kernel) (by decide +kernel) (by decide +kernel)

theorem modR_sameV : (modR.toSys (jtA 0) gA).SameVel (redR.toSys (jtA 0) gA) lockR vR vR' :=
  sameVR vR vR' (by decide +kernel) (by decide +kernel) (by decide +kernel) (by decide +kernel)

end Pin.Ex

namespace Pin.Ex
open Pin Model

/-- outcome of a call: 0 returned, 1 exception, 2 undefined behaviour -/
def Res.kind {S A : Type*} : Res S A → ℕ
  | .ok _ _ => 0
  | .throw _ => 1
  | .ub => 2

/-- the model left by a call -/
def Res.get {S A : Type*} (d : S) : Res S A → S
  | .ok s _ => s
  | _ => d

/-- joint "b" mimics joint "a" -/
def opsM : List (Op ℚ (Joint ℚ)) :=
  [.addJoint (jaJ 0 (jtA 1) mA "a"), .addJointFrame 1 none, .appendBody 1 iA mA,
   .addJoint ⟨1, ⟨jtA 1, 0, 0, 1, some (1, 0, 0)⟩, mB, "b", [], [], [], [], [], []⟩, .addJointFrame 2 none, .appendBody 2 iA mA]
def modM : Model ℚ (Joint ℚ) := (runJ (empty (jtA 0)) opsM).getD (empty (jtA 0))

/-- a fixed frame has the name of a joint that is added later -/
def opsF : List (Op ℚ (Joint ℚ)) :=
  [.addFrame ⟨"b", 0, 0, mA, FIXED_JOINT, 0⟩ true, .addJoint (jaJ 0 (jtA 1) mA "a"), .addJointFrame 1 none, .appendBody 1 iA mA,
   .addJoint (jaJ 1 (jtA 2) mA "b"), .addJointFrame 2 none, .appendBody 2 iB mB]
def modF : Model ℚ (Joint ℚ) := (runJ (empty (jtA 0)) opsF).getD (empty (jtA 0))

end Pin.Ex
