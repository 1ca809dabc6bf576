import Verif.Spatial.InertiaLemmas
import Mathlib.Tactic.NormNum

/-! # Concrete objects used to show that the hypotheses of the theorems are met -/

namespace Pin.Ex
open Pin

/-- double-precision machine epsilon -/
instance : HasEps ℚ := ⟨1 / 4503599627370496, by norm_num⟩

/-- a rational rotation about z: cos = 3/5, sin = 4/5 -/
def rz : M3 ℚ := ⟨3/5, -4/5, 0, 4/5, 3/5, 0, 0, 0, 1⟩
/-- a rational rotation about x -/
def rx : M3 ℚ := ⟨1, 0, 0, 0, 5/13, -12/13, 0, 12/13, 5/13⟩
theorem rz_rot : rz.IsRot := ⟨by ext <;> simp [rz] <;> norm_num, by simp [rz, M3.det]; norm_num⟩
theorem rx_rot : rx.IsRot := ⟨by ext <;> simp [rx] <;> norm_num, by simp [rx, M3.det]; norm_num⟩

/-- a placement with rotation and translation -/
def mA : SE3 ℚ := ⟨rz * rx, ⟨1, -2, 1/2⟩⟩
/-- another placement -/
def mB : SE3 ℚ := ⟨rx, ⟨0, 3, -1⟩⟩
theorem mA_valid : mA.Valid := M3.IsRot.mul rz_rot rx_rot
theorem mB_valid : mB.Valid := rx_rot

/-- a body: mass 2, off-centre -/
def iA : Inertia ℚ := ⟨2, ⟨1/10, 0, -1/5⟩, ⟨1, 1/10, 2, 0, -1/10, 3/2⟩⟩
/-- another body -/
def iB : Inertia ℚ := ⟨1/2, ⟨0, 1, 0⟩, ⟨1/3, 0, 1/4, 1/20, 0, 1/3⟩⟩
end Pin.Ex
