import Verif.Algo.RefFrame
import Verif.LieGroup.Curves
import Verif.Spatial.Examples
import Mathlib.Analysis.SpecialFunctions.Trigonometric.Deriv

/-! # C84 — reference frames and the classic acceleration -/

namespace Pin
open Spec

/-! ## Specification -/
namespace RFSpec
variable {K : Type*} [CommRing K]

/-- The velocity, in world axes, of the body point at the world position `p`, when the body velocity
`m` is given in the reference frame `rf` of a frame placed at `M` in the world: about the world
origin, about the frame's origin in the frame's axes, or about the frame's origin in world axes. -/
def pointVel (M : SE3 K) (rf : RF) (m : Motion K) (p : V3 K) : V3 K :=
  match rf with
  | .WORLD => m.lin + m.ang.cross p
  | .LOCAL => M.rot.mulVec (m.lin + m.ang.cross (M.rot.tr.mulVec (p - M.trans)))
  | .LOCAL_WORLD_ALIGNED => m.lin + m.ang.cross (p - M.trans)

/-- The resultant of a force given in the reference frame `rf`, in world axes. -/
def resultant (M : SE3 K) (rf : RF) (f : Force K) : V3 K :=
  match rf with
  | .WORLD => f.lin
  | .LOCAL => M.rot.mulVec f.lin
  | .LOCAL_WORLD_ALIGNED => f.lin

/-- Its moment about the world point `p`, in world axes. -/
def moment (M : SE3 K) (rf : RF) (f : Force K) (p : V3 K) : V3 K :=
  match rf with
  | .WORLD => f.ang - p.cross f.lin
  | .LOCAL => M.rot.mulVec (f.ang - (M.rot.tr.mulVec (p - M.trans)).cross f.lin)
  | .LOCAL_WORLD_ALIGNED => f.ang - (p - M.trans).cross f.lin

/-- The body placed at `P s` at time `s` moves with the velocity `V s`, expressed in the body. -/
def Moves (P : ℝ → SE3 ℝ) (V : ℝ → Motion ℝ) : Prop :=
  ∀ s, MDeriv (fun r => (P r).rot) ((P s).rot * M3.skew (V s).ang) s ∧
    VDeriv (fun r => (P r).trans) ((P s).rot.mulVec (V s).lin) s

/-- The velocity has the derivative `A` at `t`. -/
def Rate (V : ℝ → Motion ℝ) (A : Motion ℝ) (t : ℝ) : Prop :=
  VDeriv (fun s => (V s).lin) A.lin t ∧ VDeriv (fun s => (V s).ang) A.ang t
end RFSpec
open RFSpec

section
variable {K : Type*} [CommRing K]

theorem pointVel_local {M : SE3 K} (hM : M.Valid) (m : Motion K) (p : V3 K) :
    pointVel M .LOCAL m p = M.rot.mulVec m.lin + (M.rot.mulVec m.ang).cross (p - M.trans) := by
  simp only [pointVel, M3.mulVec_add, M3.IsRot.mulVec_cross hM, M3.IsRot.mulVec_tr_mulVec hM]

theorem moment_local {M : SE3 K} (hM : M.Valid) (f : Force K) (p : V3 K) :
    moment M .LOCAL f p = M.rot.mulVec f.ang - (p - M.trans).cross (M.rot.mulVec f.lin) := by
  simp only [moment, M3.mulVec_sub, M3.IsRot.mulVec_cross hM, M3.IsRot.mulVec_tr_mulVec hM]

/-- Changing the reference frame of a motion does not change the velocity of any point of the body:
all nine pairs of reference frames. -/
theorem C84_motion {M : SE3 K} (hM : M.Valid) (m : Motion K) (r r' : RF) (p : V3 K) :
    pointVel M r' (changeRFM M m r r') p = pointVel M r m p := by
  have h1 := M3.IsRot.mulVec_tr_mulVec hM
  cases r <;> cases r' <;>
    simp only [changeRFM, pointVel_local hM, SE3.act, SE3.actInv, h1, reduceCtorEq, if_true, if_false,
      and_false, false_and, and_self] <;>
    simp only [pointVel] <;> ext <;> simp <;> ring

/-- Changing the reference frame of a force changes neither its resultant nor its moment about any
point: all nine pairs of reference frames. -/
theorem C84_force {M : SE3 K} (hM : M.Valid) (f : Force K) (r r' : RF) (p : V3 K) :
    resultant M r' (changeRFF M f r r') = resultant M r f ∧
    moment M r' (changeRFF M f r r') p = moment M r f p := by
  have h1 := M3.IsRot.mulVec_tr_mulVec hM
  constructor
  · cases r <;> cases r' <;>
      simp only [changeRFF, resultant, SE3.actF, SE3.actInvF, h1, reduceCtorEq, if_true, if_false,
        and_false, false_and, and_self]
  · cases r <;> cases r' <;>
      simp only [changeRFF, moment_local hM, SE3.actF, SE3.actInvF, h1, reduceCtorEq, if_true, if_false,
        and_false, false_and, and_self] <;>
      simp only [moment] <;> ext <;> simp <;> ring

/-- The velocities of the points determine the motion in every reference frame. -/
theorem C84_motion_determined {M : SE3 K} (hM : M.Valid) (r : RF) {m m' : Motion K}
    (h : ∀ p, pointVel M r m p = pointVel M r m' p) : m = m' := by
  have cancel : ∀ {u u' : V3 K}, M.rot.mulVec u = M.rot.mulVec u' → u = u' := fun {u u'} e => by
    rw [← M3.IsRot.tr_mulVec_mulVec hM u, e, M3.IsRot.tr_mulVec_mulVec hM]
  have key : ∀ (c : V3 K) {l l' w w' : V3 K},
      (∀ p, l + w.cross (p - c) = l' + w'.cross (p - c)) → l = l' ∧ w = w' := by
    intro c l l' w w' e
    have e0 := e c
    have e1 := e (c + ⟨1, 0, 0⟩)
    have e2 := e (c + ⟨0, 1, 0⟩)
    simp only [V3.ext_iff, V3.add_x, V3.add_y, V3.add_z, V3.sub_x, V3.sub_y, V3.sub_z, V3.cross_x, V3.cross_y,
      V3.cross_z] at e0 e1 e2
    obtain ⟨a1, a2, a3⟩ := e0
    obtain ⟨b1, b2, b3⟩ := e1
    obtain ⟨c1, c2, c3⟩ := e2
    refine ⟨V3.ext ?_ ?_ ?_, V3.ext ?_ ?_ ?_⟩
    · linear_combination a1
    · linear_combination a2
    · linear_combination a3
    · linear_combination c3 - a3
    · linear_combination a3 - b3
    · linear_combination b2 - a2
  cases r with
  | WORLD =>
    have := key 0 (l := m.lin) (l' := m'.lin) (w := m.ang) (w' := m'.ang) (fun p => by simpa [pointVel] using h p)
    exact Motion.ext this.1 this.2
  | LOCAL =>
    simp only [pointVel_local hM] at h
    have := key M.trans h
    exact Motion.ext (cancel this.1) (cancel this.2)
  | LOCAL_WORLD_ALIGNED =>
    have := key M.trans h
    exact Motion.ext this.1 this.2

/-- The resultant and the moments determine the force in every reference frame. -/
theorem C84_force_determined {M : SE3 K} (hM : M.Valid) (r : RF) {f f' : Force K}
    (h : resultant M r f = resultant M r f') (h' : ∀ p, moment M r f p = moment M r f' p) : f = f' := by
  have cancel : ∀ {u u' : V3 K}, M.rot.mulVec u = M.rot.mulVec u' → u = u' := fun {u u'} e => by
    rw [← M3.IsRot.tr_mulVec_mulVec hM u, e, M3.IsRot.tr_mulVec_mulVec hM]
  cases r with
  | WORLD =>
    have e := h' 0
    simp only [resultant] at h
    simp only [moment, h, sub_left_inj] at e
    exact Force.ext h e
  | LOCAL =>
    have e := h' M.trans
    simp only [resultant] at h
    simp only [moment_local hM, h, sub_left_inj] at e
    exact Force.ext (cancel h) (cancel e)
  | LOCAL_WORLD_ALIGNED =>
    have e := h' M.trans
    simp only [resultant] at h
    simp only [moment, h, sub_left_inj] at e
    exact Force.ext h e

/-- Going through a third reference frame changes nothing; with `r'' = r`, there and back is the
identity. -/
theorem C84_compose {M : SE3 K} (hM : M.Valid) (m : Motion K) (f : Force K) (r r' r'' : RF) :
    changeRFM M (changeRFM M m r r') r' r'' = changeRFM M m r r'' ∧
    changeRFF M (changeRFF M f r r') r' r'' = changeRFF M f r r'' :=
  ⟨C84_motion_determined hM r'' fun p => by rw [C84_motion hM, C84_motion hM, C84_motion hM],
   C84_force_determined hM r''
    (by rw [(C84_force hM _ _ _ 0).1, (C84_force hM _ _ _ 0).1, (C84_force hM _ _ _ 0).1])
    fun p => by rw [(C84_force hM _ _ _ p).2, (C84_force hM _ _ _ p).2, (C84_force hM _ _ _ p).2]⟩

/-- There and back. -/
theorem C84_round_trip {M : SE3 K} (hM : M.Valid) (m : Motion K) (f : Force K) (r r' : RF) :
    changeRFM M (changeRFM M m r r') r' r = m ∧ changeRFF M (changeRFF M f r r') r' r = f := by
  have := C84_compose hM m f r r' r
  simpa [changeRFM, changeRFF] using this

/-- The power of a force on a motion is the same in every reference frame. -/
theorem C84_power {M : SE3 K} (hM : M.Valid) (m : Motion K) (f : Force K) (r r' : RF) :
    (changeRFM M m r r').dot (changeRFF M f r r') = m.dot f := by
  have hw' : ∀ (m : Motion K) (f : Force K) (s : RF),
      (changeRFM M m s .WORLD).dot (changeRFF M f s .WORLD) = m.dot f := by
    intro m f s
    cases s
    · simp [changeRFM, changeRFF]
    · simp only [changeRFM, changeRFF, reduceCtorEq, if_false, and_self, if_true, SE3.act, SE3.actF, Motion.dot]
      rw [← M3.IsRot.dot_mulVec hM f.lin, ← M3.IsRot.dot_mulVec hM f.ang]
      simp [V3.dot]; ring
    · simp [changeRFM, changeRFF, Motion.dot, V3.dot]; ring
  rw [← hw' _ _ r', (C84_compose hM m f r r' .WORLD).1, (C84_compose hM m f r r' .WORLD).2, hw' m f r]

/-- The classic acceleration of a frame placed on the body is that of its own velocity and
acceleration. -/
theorem C84_classic_placed {M : SE3 K} (hM : M.Valid) (v a : Motion K) :
    classicAccAt v a M = classicAcc (M.actInv v) (M.actInv a) := by
  have hT : M.rot.tr.IsRot := M3.IsRot.tr hM
  simp only [classicAccAt, classicAcc, SE3.actInv, ← M3.IsRot.mulVec_cross hT, ← M3.mulVec_add]
  congr 1
  ext <;> simp <;> ring
end

/-- The classic acceleration is the second derivative of the position of the frame's origin, in the
axes of the frame, when the spatial acceleration is the derivative of the spatial velocity. -/
theorem C84_classic {P : ℝ → SE3 ℝ} {V : ℝ → Motion ℝ} {A : Motion ℝ} {t : ℝ} (hP : Moves P V)
    (hA : Rate V A t) {u : ℝ → V3 ℝ} (hu : ∀ s, VDeriv (fun r => (P r).trans) (u s) s) :
    VDeriv u ((P t).rot.mulVec (classicAcc (V t) A)) t := by
  obtain rfl : u = fun s => (P s).rot.mulVec (V s).lin := funext fun s => (hu s).unique (hP s).2
  refine ((hP t).1.mulVec hA.1).congr ?_
  rw [M3.mulVec_mulVec, M3.skew_mulVec, ← M3.mulVec_add, classicAcc, add_comm]

/-- The same for a frame placed at `M` on the body: the second derivative of the position of its
origin, in its axes. -/
theorem C84_classic_frame {P : ℝ → SE3 ℝ} {V : ℝ → Motion ℝ} {A : Motion ℝ} {t : ℝ} (hP : Moves P V)
    (hA : Rate V A t) {M : SE3 ℝ} (hM : M.Valid) {u : ℝ → V3 ℝ}
    (hu : ∀ s, VDeriv (fun r => (P r * M).trans) (u s) s) :
    VDeriv u ((P t * M).rot.mulVec (classicAccAt (V t) A M)) t := by
  have hd : ∀ s, VDeriv (fun r => (P r * M).trans)
      ((P s).rot.mulVec (V s).lin + (P s).rot.mulVec ((V s).ang.cross M.trans)) s := fun s =>
    ((hP s).2.add ((hP s).1.mulVec (VDeriv.const M.trans))).congr (by
      rw [M3.mulVec_zero, add_zero, M3.mulVec_mulVec, M3.skew_mulVec])
  obtain rfl : u = _ := funext fun s => (hu s).unique (hd s)
  refine (((hP t).1.mulVec hA.1).add ((hP t).1.mulVec (hA.2.cross (VDeriv.const M.trans)))).congr ?_
  rw [SE3.mul_rot, M3.mulVec_mulVec (P t).rot M.rot, classicAccAt, M3.IsRot.mulVec_tr_mulVec hM]
  simp only [M3.mulVec_mulVec, M3.skew_mulVec, ← M3.mulVec_add]
  congr 1
  ext <;> simp <;> ring

/-! ## The hypotheses are met -/

example : Ex.mA.Valid ∧
    changeRFM Ex.mA ⟨⟨1, 2, 3⟩, ⟨4, 5, 6⟩⟩ .LOCAL .LOCAL_WORLD_ALIGNED ≠ ⟨⟨1, 2, 3⟩, ⟨4, 5, 6⟩⟩ :=
  ⟨Ex.mA_valid, by decide +kernel⟩

/-- A body on a circle of radius 1, turning with it. -/
noncomputable def Ex.circle (s : ℝ) : SE3 ℝ :=
  ⟨⟨Real.cos s, -Real.sin s, 0, Real.sin s, Real.cos s, 0, 0, 0, 1⟩, ⟨Real.cos s, Real.sin s, 0⟩⟩

/-- It meets the hypotheses of `C84_classic`, with an acceleration towards the centre. -/
example : Moves Ex.circle (fun _ => ⟨⟨0, 1, 0⟩, ⟨0, 0, 1⟩⟩) ∧ Rate (fun _ => ⟨⟨0, 1, 0⟩, ⟨0, 0, 1⟩⟩) 0 0 ∧
    classicAcc (⟨⟨0, 1, 0⟩, ⟨0, 0, 1⟩⟩ : Motion ℝ) 0 = ⟨-1, 0, 0⟩ := by
  refine ⟨fun s => ⟨⟨?_, ?_, ?_, ?_, ?_, ?_, ?_, ?_, ?_⟩, ⟨?_, ?_, ?_⟩⟩, ⟨VDeriv.const _, VDeriv.const _⟩, ?_⟩
  · exact (Real.hasDerivAt_cos s).congr_deriv (by simp [Ex.circle, M3.skew])
  · exact (Real.hasDerivAt_sin s).neg.congr_deriv (by simp [Ex.circle, M3.skew])
  · exact (hasDerivAt_const s (0 : ℝ)).congr_deriv (by simp [Ex.circle, M3.skew])
  · exact (Real.hasDerivAt_sin s).congr_deriv (by simp [Ex.circle, M3.skew])
  · exact (Real.hasDerivAt_cos s).congr_deriv (by simp [Ex.circle, M3.skew])
  · exact (hasDerivAt_const s (0 : ℝ)).congr_deriv (by simp [Ex.circle, M3.skew])
  · exact (hasDerivAt_const s (0 : ℝ)).congr_deriv (by simp [Ex.circle, M3.skew])
  · exact (hasDerivAt_const s (0 : ℝ)).congr_deriv (by simp [Ex.circle, M3.skew])
  · exact (hasDerivAt_const s (1 : ℝ)).congr_deriv (by simp [Ex.circle, M3.skew])
  · exact (Real.hasDerivAt_cos s).congr_deriv (by simp [Ex.circle])
  · exact (Real.hasDerivAt_sin s).congr_deriv (by simp [Ex.circle])
  · exact (hasDerivAt_const s (0 : ℝ)).congr_deriv (by simp [Ex.circle])
  · ext <;> simp [classicAcc]
end Pin
