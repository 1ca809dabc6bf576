import Verif.Joint.Composite
import Verif.Algo.Examples
import Mathlib.Analysis.SpecialFunctions.Trigonometric.Basic

/-!
# C39: joint models

`J.Ok q`: the rotation of the joint transform `M(q)` is a rotation matrix and `calc(q, w)` returns the joint
velocity `S(q) w`, for every `w` (`Verif/Algo/Data.lean`).

`J.Kinematic Jε q w dq` (`Verif/Spec/Dual.lean`): along a motion with joint velocity `w`, that is
configuration derivative `dq`, the joint transform moves with body velocity `S(q) w` and the bias is
`Ṡ w`. Derivatives are the `ε`-parts of the same code over dual numbers, `Jε`.
-/

namespace Pin
open Finset DualNumber TrivSqZeroExt
universe u
variable {K : Type u} [CommRing K]

/-- the real sine and cosine -/
noncomputable instance : Trig ℝ where
  sin := Real.sin
  cos := Real.cos
  sq x := by rw [← pow_two, ← pow_two]; exact Real.sin_sq_add_cos_sq x

theorem C39_revolute (a : Fin 3) [Trig K] (q w : ℕ → K) :
    (jRevolute a : Joint K).Ok q ∧ (jRevolute a : Joint K).Kinematic (jRevolute a) q w w :=
  ⟨jRevolute_ok a q, jRevolute_kin a q w⟩

theorem C39_revoluteUnaligned {u : V3 K} (hu : u.sqNorm = 1) [Trig K] (q w : ℕ → K) :
    (jRevoluteUnaligned u).Ok q ∧
      (jRevoluteUnaligned u).Kinematic (jRevoluteUnaligned (u.map inl)) q w w :=
  ⟨jRevoluteUnaligned_ok hu q, jRevoluteUnaligned_kin hu q w⟩

example : (⟨3/5, 0, 4/5⟩ : V3 ℚ).sqNorm = 1 := by norm_num [V3.sqNorm]

/-- the configuration is `(cos θ, sin θ)`; at joint velocity `w` its derivative is `w (-sin θ, cos θ)` -/
theorem C39_revoluteUnbounded (a : Fin 3) {q : ℕ → K} (hq : q 0 * q 0 + q 1 * q 1 = 1) (w : ℕ → K) :
    (jRUB a : Joint K).Ok q ∧ (jRUB a : Joint K).Kinematic (jRUB a) q w (circleDot q w) :=
  ⟨jRUB_ok a hq, jRUB_kin a q w⟩

example : ∃ q : ℕ → ℚ, q 0 * q 0 + q 1 * q 1 = 1 ∧ q 0 ≠ 0 ∧ q 1 ≠ 0 :=
  ⟨fun k => if k = 0 then 3/5 else 4/5, by norm_num⟩

theorem C39_revoluteUnboundedUnaligned {u : V3 K} (hu : u.sqNorm = 1) {q : ℕ → K}
    (hq : q 0 * q 0 + q 1 * q 1 = 1) (w : ℕ → K) :
    (jRUBUnaligned u).Ok q ∧
      (jRUBUnaligned u).Kinematic (jRUBUnaligned (u.map inl)) q w (circleDot q w) :=
  ⟨jRUBUnaligned_ok hu hq, jRUBUnaligned_kin hu q w⟩

theorem C39_prismatic (a : Fin 3) (q w : ℕ → K) :
    (jPrismatic a : Joint K).Ok q ∧ (jPrismatic a : Joint K).Kinematic (jPrismatic a) q w w :=
  ⟨jPrismatic_ok a q, jPrismatic_kin a q w⟩

theorem C39_prismaticUnaligned (u : V3 K) (q w : ℕ → K) :
    (jPrismaticUnaligned u).Ok q ∧
      (jPrismaticUnaligned u).Kinematic (jPrismaticUnaligned (u.map inl)) q w w :=
  ⟨jPrismaticUnaligned_ok u q, jPrismaticUnaligned_kin u q w⟩

theorem C39_translation (q w : ℕ → K) :
    (jTranslation : Joint K).Ok q ∧ (jTranslation : Joint K).Kinematic jTranslation q w w :=
  ⟨jTranslation_ok q, jTranslation_kin q w⟩

theorem C39_planar {q : ℕ → K} (hq : q 2 * q 2 + q 3 * q 3 = 1) (w : ℕ → K) :
    (jPlanar : Joint K).Ok q ∧ (jPlanar : Joint K).Kinematic jPlanar q w (planarDot q w) :=
  ⟨jPlanar_ok hq, jPlanar_kin q w⟩

/-- `QuatDot q dq ω`: `2 dq = q ⊗ (ω, 0)` -/
theorem C39_spherical {q dq w : ℕ → K} (hq : q 0 * q 0 + q 1 * q 1 + q 2 * q 2 + q 3 * q 3 = 1)
    (hd : QuatDot q dq (V3.ofSeq w)) :
    (jSpherical : Joint K).Ok q ∧ (jSpherical : Joint K).Kinematic jSpherical q w dq :=
  ⟨jSpherical_ok hq, jSpherical_kin hq hd⟩

example : ∃ q dq w : ℕ → ℚ, q 0 * q 0 + q 1 * q 1 + q 2 * q 2 + q 3 * q 3 = 1 ∧
    QuatDot q dq (V3.ofSeq w) ∧ w 0 ≠ 0 := by
  refine ⟨fun k => [3/5, 0, 0, 4/5].getD k 0, fun k => [2/5, -9/10, 3/5 + 3/5, -3/10].getD k 0,
    fun k => [1, 0, 3].getD k 0, by norm_num, ⟨?_, ?_, ?_, ?_⟩, by norm_num⟩ <;> norm_num [V3.ofSeq]

/-- `ṗ = R v` and `2 q̇uat = quat ⊗ (ω, 0)` -/
theorem C39_freeFlyer {q dq w : ℕ → K} (hq : q 3 * q 3 + q 4 * q 4 + q 5 * q 5 + q 6 * q 6 = 1)
    (ht : V3.ofSeq dq = (quatMat (q 3) (q 4) (q 5) (q 6)).mulVec (V3.ofSeq w))
    (hd : QuatDot (seg q 3) (seg dq 3) (V3.ofSeq (seg w 3))) :
    (jFreeFlyer : Joint K).Ok q ∧ (jFreeFlyer : Joint K).Kinematic jFreeFlyer q w dq :=
  ⟨jFreeFlyer_ok hq, jFreeFlyer_kin hq ht hd⟩

theorem C39_sphericalZYX [Trig K] (q w : ℕ → K) :
    (jSphericalZYX : Joint K).Ok q ∧ (jSphericalZYX : Joint K).Kinematic jSphericalZYX q w w :=
  ⟨jSphericalZYX_ok q, jSphericalZYX_kin q w⟩

theorem C39_universal {a1 a2 : V3 K} (h1 : a1.sqNorm = 1) (h2 : a2.sqNorm = 1) [Trig K] (q w : ℕ → K) :
    (jUniversal a1 a2).Ok q ∧
      (jUniversal a1 a2).Kinematic (jUniversal (a1.map inl) (a2.map inl)) q w w :=
  ⟨jUniversal_ok h1 h2 q, jUniversal_kin h1 h2 q w⟩

theorem C39_helical (a : Fin 3) (h : K) [Trig K] (q w : ℕ → K) :
    (jHelical a h).Ok q ∧ (jHelical a h).Kinematic (jHelical a (inl h)) q w w :=
  ⟨jHelical_ok a h q, jHelical_kin a h q w⟩

theorem C39_helicalUnaligned {u : V3 K} (hu : u.sqNorm = 1) (h : K) [Trig K] (q w : ℕ → K) :
    (jHelicalUnaligned u h).Ok q ∧
      (jHelicalUnaligned u h).Kinematic (jHelicalUnaligned (u.map inl) (inl h)) q w w :=
  ⟨jHelicalUnaligned_ok hu h q, jHelicalUnaligned_kin hu h q w⟩

/-- A composite of any non-empty list of lawful joints is lawful: `EltsKin` asks of every element a rigid
placement, `Ok` and `Kinematic` on its own segment, the segments being consecutive. -/
theorem C39_composite {l : List (SE3 K × Joint K)} {lε : List (SE3 K[ε] × Joint K[ε])} (hl : l ≠ [])
    {q w dq : ℕ → K} (h : EltsKin q w dq l lε 0 0) :
    (jComposite l).Ok q ∧ (jComposite l).Kinematic (jComposite lε) q w dq :=
  ⟨jComposite_ok hl h.ok, jComposite_kin hl h⟩

/-- a composite of a revolute, a spherical ZYX and a helical joint with non-trivial placements -/
example (q w : ℕ → ℚ) : EltsKin q w w
    [(Ex.mA, jRevolute 1), (Ex.mB, jSphericalZYX), (Ex.mA, jHelical 2 3)]
    [(Ex.mA.map inl, jRevolute 1), (Ex.mB.map inl, jSphericalZYX), (Ex.mA.map inl, jHelical 2 (inl 3))] 0 0 :=
  ⟨Ex.mA_valid, rfl, rfl, rfl, jRevolute_ok _ _, jRevolute_kin _ _ _,
   Ex.mB_valid, rfl, rfl, rfl, jSphericalZYX_ok _, jSphericalZYX_kin _ _,
   Ex.mA_valid, rfl, rfl, rfl, jHelical_ok _ _ _, jHelical_kin _ _ _ _, trivial⟩

/-- A mimic joint (scaling `r`, offset `o`) of a joint on a vector space is lawful as soon as the motion
subspace it copied when its data was created is the one of the mimicking joint. -/
theorem C39_mimic_partial {J : Joint K} {Jε : Joint K[ε]} {S0 : ℕ → Motion K} {r o : K} {q w : ℕ → K}
    (hok : J.Ok (linearAffine r o q))
    (hJ : J.Kinematic Jε (linearAffine r o q) (fun k => r * w k) (fun k => r * w k))
    (hS : ∀ k, k < J.nv → J.S (linearAffine r o q) k = S0 k)
    (hc : J.c (linearAffine r o q) (fun k => r * w k) = 0) :
    (jMimic J S0 linearAffine r o).Ok q ∧ (jMimic J S0 linearAffine r o).Kinematic
      (jMimic Jε (fun k => (S0 k).map inl) linearAffine (inl r) (inl o)) q w w :=
  ⟨jMimic_ok hok hS, jMimic_kin hJ hS hc⟩

/-- instance: mimicking revolute, prismatic joints (aligned or not) -/
theorem C39_mimic_revolute_prismatic (a : Fin 3) {u : V3 K} (hu : u.sqNorm = 1) (r o : K) [Trig K] (q : ℕ → K) :
    (jMimic (jRevolute a) (cols [⟨0, V3.axis a⟩]) linearAffine r o).Ok q ∧
    (jMimic (jPrismatic a) (cols [⟨V3.axis a, 0⟩]) linearAffine r o).Ok q ∧
    (jMimic (jRevoluteUnaligned u) (cols [⟨0, u⟩]) linearAffine r o).Ok q ∧
    (jMimic (jPrismaticUnaligned u) (cols [⟨u, 0⟩]) linearAffine r o).Ok q :=
  ⟨jMimic_ok (jRevolute_ok a _) fun _ _ => rfl, jMimic_ok (jPrismatic_ok a _) fun _ _ => rfl,
   jMimic_ok (jRevoluteUnaligned_ok hu _) fun _ _ => rfl, jMimic_ok (jPrismaticUnaligned_ok u _) fun _ _ => rfl⟩

/-- **Finding.** Mimicking a helical joint: `createData()` of a helical joint has pitch `0`, and the mimic
joint data copies that subspace and never refreshes it. So the subspace of the mimic joint has no pitch while
its velocity has one, and `v = S w` fails, whatever the pitch `h ≠ 0` and the ratio `r ≠ 0`. -/
theorem C39_mimic_helical_counterexample {K : Type u} [Field K] [Trig K] (a : Fin 3) {h r : K} (hh : h ≠ 0)
    (hr : r ≠ 0) (o : K) (q : ℕ → K) :
    ¬ (jMimic (jHelical a h) (helicalS0 a) linearAffine r o).Ok q := by
  intro H
  have := H.vel (fun _ => 1)
  rw [show (jMimic (jHelical a h) (helicalS0 a) linearAffine r o).nv = 1 from rfl, comb_one] at this
  have e : (r * h) • (V3.axis a : V3 K) = 0 := by
    have := congrArg Motion.lin this
    simpa [jMimic, jHelical, helicalS0, cols] using this
  have hne : r * h ≠ 0 := mul_ne_zero hr hh
  fin_cases a
  · have := congrArg V3.x e; simp [V3.axis, hne] at this
  · have := congrArg V3.y e; simp [V3.axis, hne] at this
  · have := congrArg V3.z e; simp [V3.axis, hne] at this

example : ¬ (jMimic (jHelical 2 3) (helicalS0 2) linearAffine 2 0 : Joint ℚ).Ok (fun _ => 1/2) :=
  C39_mimic_helical_counterexample 2 (by norm_num) (by norm_num) _ _
end Pin
