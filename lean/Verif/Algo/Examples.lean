import Verif.Joint.Lemmas
import Verif.Joint.Kinematic
import Verif.Spatial.Examples
import Verif.Algo.CrbaLemmas
import Mathlib.Tactic.IntervalCases
import Mathlib.Tactic.FinCases

/-!
# A concrete robot

Four joints over `ℚ`: a revolute joint carrying a prismatic joint and a spherical joint, which carries a
revolute joint about a general axis. Placements and bodies are not aligned. Used to show that the
hypotheses of the algorithm theorems are met.
-/

namespace Pin.Ex
open Pin Finset

/-- a rational parametrisation of the circle -/
instance : Trig ℚ where
  sin x := 2 * x / (1 + x * x)
  cos x := (1 - x * x) / (1 + x * x)
  sq x := by
    have : (1 + x * x) ≠ 0 := by nlinarith [mul_self_nonneg x]
    field_simp; ring

/-- the axis of the last joint -/
def ax : V3 ℚ := ⟨3/5, 0, 4/5⟩

/-- joints of the example -/
def jtA : ℕ → Joint ℚ
  | 1 => jRevolute 2
  | 2 => jPrismatic 0
  | 3 => jSpherical
  | _ => jRevoluteUnaligned ax

/-- the example robot -/
def sysA : Sys ℚ where
  n := 5
  par i := if i ≤ 1 then 0 else if i ≤ 3 then 1 else 3
  pl i := if i ≤ 2 then mA else mB
  Y i := if i = 2 then iB else iA
  jt := jtA
  iq i := if i ≤ 1 then 0 else if i = 2 then 1 else if i = 3 then 2 else 6
  iv i := if i ≤ 1 then 0 else if i = 2 then 1 else if i = 3 then 2 else 5
  nv := 6
  arm r := if r = 0 then 1/10 else 0
  grav := ⟨⟨0, 0, -981/100⟩, 0⟩

/-- a configuration: the quaternion part is a unit quaternion -/
def qA : ℕ → ℚ := fun k => if k = 0 then 1/2 else if k = 1 then 1/3 else if k ≤ 5 then 1/2 else 1

theorem sysA_par : ParOk sysA.par sysA.n :=
  ⟨by decide, fun i h1 hi => by
    change i < 5 at hi
    interval_cases i <;> simp [sysA]⟩

theorem sysA_packed : sysA.Packed := by
  refine ⟨sysA_par, fun i h1 hi => ?_, ?_⟩
  · change i < 5 at hi
    interval_cases i <;> rfl
  · rfl

theorem sysA_compact : Compact sysA.par sysA.n := by
  rw [← crbaCheck_iff sysA_par]; decide

theorem sysA_at : sysA.At qA := by
  refine ⟨fun i _ _ => ?_, fun i h1 hi => ?_⟩
  · simp only [sysA]; split
    · exact mA_valid
    · exact mB_valid
  · change i < 5 at hi
    interval_cases i
    · exact jRevolute_ok _ _
    · exact jPrismatic_ok _ _
    · exact jSpherical_ok (by simp [Sys.qs, seg, sysA, qA]; norm_num)
    · exact jRevoluteUnaligned_ok (by norm_num [V3.sqNorm, ax]) _

theorem sysA_masses : sysA.MassesOk := by
  intro i _ _
  right
  simp only [sysA]
  split <;> norm_num [iA, iB, HasEps.eps]

end Pin.Ex
