import Verif.Joint.Lemmas
import Mathlib.Algebra.Order.Field.Basic
import Mathlib.Tactic.FieldSimp

/-! # `math/quaternion.hpp` -/

namespace Pin
universe u

/-- `math::sqrt`; only its value on non-negative numbers matters -/
class HasSqrt (K : Type u) [Field K] [LinearOrder K] where
  sqrt : K → K
  sq : ∀ x, 0 ≤ x → sqrt x * sqrt x = x
  nonneg : ∀ x, 0 ≤ sqrt x

/-- `Eigen::Quaternion`, coefficients in the storage order `(x, y, z, w)` -/
@[ext] structure Quat (K : Type u) where
  x : K
  y : K
  z : K
  w : K
  deriving DecidableEq

namespace Quat
section ring
variable {K : Type u} [CommRing K]

instance : Neg (Quat K) := ⟨fun q => ⟨-q.x, -q.y, -q.z, -q.w⟩⟩

/-- `squaredNorm()` -/
def sqNorm (q : Quat K) : K := q.x * q.x + q.y * q.y + q.z * q.z + q.w * q.w

/-- `dot` -/
def dot (p q : Quat K) : K := p.x * q.x + p.y * q.y + p.z * q.z + p.w * q.w

/-- `toRotationMatrix()` -/
def toMat (q : Quat K) : M3 K := quatMat q.x q.y q.z q.w

/-- Eigen product of quaternions -/
instance : Mul (Quat K) := ⟨fun a b =>
  ⟨a.w * b.x + a.x * b.w + a.y * b.z - a.z * b.y,
   a.w * b.y + a.y * b.w + a.z * b.x - a.x * b.z,
   a.w * b.z + a.z * b.w + a.x * b.y - a.y * b.x,
   a.w * b.w - a.x * b.x - a.y * b.y - a.z * b.z⟩⟩

/-- `conjugate()`, the inverse of a unit quaternion -/
def conj (q : Quat K) : Quat K := ⟨-q.x, -q.y, -q.z, q.w⟩

end ring

section field
variable {K : Type u} [Field K] [LinearOrder K] [HasSqrt K]

/-- `quaternionbase_assign_impl_if_t_positive::run`, `quaternion.hpp:168-180` -/
def assignPos (t : K) (m : M3 K) : Quat K :=
  let t := HasSqrt.sqrt (t + 1)
  let w := 1 / 2 * t
  let t := 1 / 2 / t
  ⟨(m.m21 - m.m12) * t, (m.m02 - m.m20) * t, (m.m10 - m.m01) * t, w⟩

/-- `quaternionbase_assign_impl_if_t_negative<0>::run`, `quaternion.hpp:140-160` -/
def assignNeg0 (m : M3 K) : Quat K :=
  let t := HasSqrt.sqrt (m.m00 - m.m11 - m.m22 + 1)
  let x := 1 / 2 * t
  let t := 1 / 2 / t
  ⟨x, (m.m10 + m.m01) * t, (m.m20 + m.m02) * t, (m.m21 - m.m12) * t⟩

/-- `quaternionbase_assign_impl_if_t_negative<1>::run`, `quaternion.hpp:140-160` -/
def assignNeg1 (m : M3 K) : Quat K :=
  let t := HasSqrt.sqrt (m.m11 - m.m22 - m.m00 + 1)
  let y := 1 / 2 * t
  let t := 1 / 2 / t
  ⟨(m.m01 + m.m10) * t, y, (m.m21 + m.m12) * t, (m.m02 - m.m20) * t⟩

/-- `quaternionbase_assign_impl_if_t_negative<2>::run`, `quaternion.hpp:140-160` -/
def assignNeg2 (m : M3 K) : Quat K :=
  let t := HasSqrt.sqrt (m.m22 - m.m00 - m.m11 + 1)
  let z := 1 / 2 * t
  let t := 1 / 2 / t
  ⟨(m.m02 + m.m20) * t, (m.m12 + m.m21) * t, z, (m.m10 - m.m01) * t⟩

/-- `quaternionbase_assign_impl<Scalar, true>::run`, i.e. `assignQuaternion(quat, R)`, `quaternion.hpp:180-215`. -/
def assign (m : M3 K) : Quat K :=
  let t := m.m00 + m.m11 + m.m22
  if t > 0 then assignPos t m
  else
    let i := if m.m11 > m.m00 then 1 else 0
    let mii := if m.m11 > m.m00 then m.m11 else m.m00
    let i := if m.m22 > mii then 2 else i
    if i = 0 then assignNeg0 m else if i = 1 then assignNeg1 m else assignNeg2 m

end field

/-! ## lemmas -/
section ring
variable {K : Type u} [CommRing K]

theorem sqNorm_mul (a b : Quat K) : (a * b).sqNorm = a.sqNorm * b.sqNorm := by
  change sqNorm (K := K) ⟨_, _, _, _⟩ = _
  simp only [sqNorm]; ring

theorem toMat_neg (q : Quat K) : (-q).toMat = q.toMat := by
  change quatMat (-q.x) (-q.y) (-q.z) (-q.w) = quatMat q.x q.y q.z q.w
  simp [quatMat]

theorem toMat_mul {a b : Quat K} (ha : a.sqNorm = 1) (hb : b.sqNorm = 1) : (a * b).toMat = a.toMat * b.toMat := by
  obtain ⟨ax, ay, az, aw⟩ := a
  obtain ⟨bx, bY, bz, bw⟩ := b
  simp only [sqNorm] at ha hb
  change quatMat (aw * bx + ax * bw + ay * bz - az * bY) (aw * bY + ay * bw + az * bx - ax * bz)
    (aw * bz + az * bw + ax * bY - ay * bx) (aw * bw - ax * bx - ay * bY - az * bz)
    = quatMat ax ay az aw * quatMat bx bY bz bw
  ext <;> simp only [quatMat, M3.mul_m00, M3.mul_m01, M3.mul_m02, M3.mul_m10, M3.mul_m11,
    M3.mul_m12, M3.mul_m20, M3.mul_m21, M3.mul_m22] <;> grind

theorem toMat_conj (q : Quat K) : q.conj.toMat = q.toMat.tr := by
  change quatMat (-q.x) (-q.y) (-q.z) q.w = (quatMat q.x q.y q.z q.w).tr
  ext <;> simp [quatMat, M3.tr] <;> ring

end ring

section field
variable {K : Type u} [Field K] [LinearOrder K] [IsStrictOrderedRing K]

theorem rank1_w {m : M3 K} (h : m.IsRot) :
    (m.m21 - m.m12) * (m.m21 - m.m12) = (1 + m.m00 + m.m11 + m.m22) * (1 + m.m00 - m.m11 - m.m22) ∧
    (m.m21 - m.m12) * (m.m02 - m.m20) = (1 + m.m00 + m.m11 + m.m22) * (m.m01 + m.m10) ∧
    (m.m21 - m.m12) * (m.m10 - m.m01) = (1 + m.m00 + m.m11 + m.m22) * (m.m02 + m.m20) ∧
    (m.m02 - m.m20) * (m.m02 - m.m20) = (1 + m.m00 + m.m11 + m.m22) * (1 - m.m00 + m.m11 - m.m22) ∧
    (m.m02 - m.m20) * (m.m10 - m.m01) = (1 + m.m00 + m.m11 + m.m22) * (m.m12 + m.m21) ∧
    (m.m10 - m.m01) * (m.m10 - m.m01) = (1 + m.m00 + m.m11 + m.m22) * (1 - m.m00 - m.m11 + m.m22) := by
  obtain ⟨⟨a1, a2, a3, a4, a5, a6⟩, ⟨b1, b2, b3, b4, b5, b6⟩, c1, c2, c3, c4, c5, c6, c7, c8, c9⟩ := h.eqs
  refine ⟨?_, ?_, ?_, ?_, ?_, ?_⟩ <;> grind

theorem rank1_x {m : M3 K} (h : m.IsRot) :
    (m.m01 + m.m10) * (m.m01 + m.m10) = (1 + m.m00 - m.m11 - m.m22) * (1 - m.m00 + m.m11 - m.m22) ∧
    (m.m01 + m.m10) * (m.m02 + m.m20) = (1 + m.m00 - m.m11 - m.m22) * (m.m12 + m.m21) ∧
    (m.m01 + m.m10) * (m.m21 - m.m12) = (1 + m.m00 - m.m11 - m.m22) * (m.m02 - m.m20) ∧
    (m.m02 + m.m20) * (m.m02 + m.m20) = (1 + m.m00 - m.m11 - m.m22) * (1 - m.m00 - m.m11 + m.m22) ∧
    (m.m02 + m.m20) * (m.m21 - m.m12) = (1 + m.m00 - m.m11 - m.m22) * (m.m10 - m.m01) ∧
    (m.m21 - m.m12) * (m.m21 - m.m12) = (1 + m.m00 - m.m11 - m.m22) * (1 + m.m00 + m.m11 + m.m22) := by
  obtain ⟨⟨a1, a2, a3, a4, a5, a6⟩, ⟨b1, b2, b3, b4, b5, b6⟩, c1, c2, c3, c4, c5, c6, c7, c8, c9⟩ := h.eqs
  refine ⟨?_, ?_, ?_, ?_, ?_, ?_⟩ <;> grind

theorem rank1_y {m : M3 K} (h : m.IsRot) :
    (m.m01 + m.m10) * (m.m01 + m.m10) = (1 - m.m00 + m.m11 - m.m22) * (1 + m.m00 - m.m11 - m.m22) ∧
    (m.m01 + m.m10) * (m.m12 + m.m21) = (1 - m.m00 + m.m11 - m.m22) * (m.m02 + m.m20) ∧
    (m.m01 + m.m10) * (m.m02 - m.m20) = (1 - m.m00 + m.m11 - m.m22) * (m.m21 - m.m12) ∧
    (m.m12 + m.m21) * (m.m12 + m.m21) = (1 - m.m00 + m.m11 - m.m22) * (1 - m.m00 - m.m11 + m.m22) ∧
    (m.m12 + m.m21) * (m.m02 - m.m20) = (1 - m.m00 + m.m11 - m.m22) * (m.m10 - m.m01) ∧
    (m.m02 - m.m20) * (m.m02 - m.m20) = (1 - m.m00 + m.m11 - m.m22) * (1 + m.m00 + m.m11 + m.m22) := by
  obtain ⟨⟨a1, a2, a3, a4, a5, a6⟩, ⟨b1, b2, b3, b4, b5, b6⟩, c1, c2, c3, c4, c5, c6, c7, c8, c9⟩ := h.eqs
  refine ⟨?_, ?_, ?_, ?_, ?_, ?_⟩ <;> grind

theorem rank1_z {m : M3 K} (h : m.IsRot) :
    (m.m02 + m.m20) * (m.m02 + m.m20) = (1 - m.m00 - m.m11 + m.m22) * (1 + m.m00 - m.m11 - m.m22) ∧
    (m.m02 + m.m20) * (m.m12 + m.m21) = (1 - m.m00 - m.m11 + m.m22) * (m.m01 + m.m10) ∧
    (m.m02 + m.m20) * (m.m10 - m.m01) = (1 - m.m00 - m.m11 + m.m22) * (m.m21 - m.m12) ∧
    (m.m12 + m.m21) * (m.m12 + m.m21) = (1 - m.m00 - m.m11 + m.m22) * (1 - m.m00 + m.m11 - m.m22) ∧
    (m.m12 + m.m21) * (m.m10 - m.m01) = (1 - m.m00 - m.m11 + m.m22) * (m.m02 - m.m20) ∧
    (m.m10 - m.m01) * (m.m10 - m.m01) = (1 - m.m00 - m.m11 + m.m22) * (1 + m.m00 + m.m11 + m.m22) := by
  obtain ⟨⟨a1, a2, a3, a4, a5, a6⟩, ⟨b1, b2, b3, b4, b5, b6⟩, c1, c2, c3, c4, c5, c6, c7, c8, c9⟩ := h.eqs
  refine ⟨?_, ?_, ?_, ?_, ?_, ?_⟩ <;> grind

/-- a quaternion whose products of coefficients are read from `m` -/
theorem toMat_of_products {m : M3 K} {q : Quat K}
    (hxx : 4 * (q.x * q.x) = 1 + m.m00 - m.m11 - m.m22) (hyy : 4 * (q.y * q.y) = 1 - m.m00 + m.m11 - m.m22)
    (hzz : 4 * (q.z * q.z) = 1 - m.m00 - m.m11 + m.m22) (hww : 4 * (q.w * q.w) = 1 + m.m00 + m.m11 + m.m22)
    (hxy : 4 * (q.x * q.y) = m.m01 + m.m10) (hxz : 4 * (q.x * q.z) = m.m02 + m.m20)
    (hyz : 4 * (q.y * q.z) = m.m12 + m.m21) (hwx : 4 * (q.w * q.x) = m.m21 - m.m12)
    (hwy : 4 * (q.w * q.y) = m.m02 - m.m20) (hwz : 4 * (q.w * q.z) = m.m10 - m.m01) :
    q.sqNorm = 1 ∧ q.toMat = m := by
  constructor
  · simp only [sqNorm]; linarith
  · obtain ⟨x, y, z, w⟩ := q
    simp only [toMat] at *
    ext <;> simp only [quatMat] <;> linarith

section scal
variable {T s a b n : K}
theorem piv_aa (h : s * s = T) : 4 * (1 / 2 * s * (1 / 2 * s)) = T := by rw [← h]; ring
theorem piv_ab (hs : s ≠ 0) : 4 * (1 / 2 * s * (a * (1 / 2 / s))) = a := by field_simp; ring
theorem piv_ba (hs : s ≠ 0) : 4 * (a * (1 / 2 / s) * (1 / 2 * s)) = a := by field_simp; ring
theorem piv_bc (hs : s ≠ 0) (h : s * s = T) (hr : a * b = T * n) :
    4 * (a * (1 / 2 / s) * (b * (1 / 2 / s))) = n := by
  have : 4 * (a * (1 / 2 / s) * (b * (1 / 2 / s))) = a * b / (s * s) := by field_simp; ring
  have hT : T ≠ 0 := by rw [← h]; exact mul_ne_zero hs hs
  rw [this, h, hr, mul_div_cancel_left₀ _ hT]
end scal

variable [HasSqrt K]

theorem sqrt_ne {T : K} (h : 0 < T) : HasSqrt.sqrt T ≠ 0 := by
  intro e
  have := HasSqrt.sq T h.le
  rw [e, mul_zero] at this
  exact h.ne this

theorem assignPos_ok {m : M3 K} (h : m.IsRot) (ht : 0 < m.m00 + m.m11 + m.m22 + 1) :
    (assignPos (m.m00 + m.m11 + m.m22) m).sqNorm = 1 ∧ (assignPos (m.m00 + m.m11 + m.m22) m).toMat = m := by
  obtain ⟨r1, r2, r3, r4, r5, r6⟩ := rank1_w h
  have hs := HasSqrt.sq _ ht.le
  have h0 := sqrt_ne ht
  apply toMat_of_products <;> simp only [assignPos]
  · exact piv_bc h0 hs (by linear_combination r1)
  · exact piv_bc h0 hs (by linear_combination r4)
  · exact piv_bc h0 hs (by linear_combination r6)
  · rw [piv_aa hs]; ring
  · exact piv_bc h0 hs (by linear_combination r2)
  · exact piv_bc h0 hs (by linear_combination r3)
  · exact piv_bc h0 hs (by linear_combination r5)
  · exact piv_ab h0
  · exact piv_ab h0
  · exact piv_ab h0

theorem assignNeg0_ok {m : M3 K} (h : m.IsRot) (ht : 0 < m.m00 - m.m11 - m.m22 + 1) :
    (assignNeg0 m).sqNorm = 1 ∧ (assignNeg0 m).toMat = m := by
  obtain ⟨r1, r2, r3, r4, r5, r6⟩ := rank1_x h
  have hs := HasSqrt.sq _ ht.le
  have h0 := sqrt_ne ht
  apply toMat_of_products <;> simp only [assignNeg0]
  · rw [piv_aa hs]; ring
  · exact piv_bc h0 hs (by linear_combination r1)
  · exact piv_bc h0 hs (by linear_combination r4)
  · exact piv_bc h0 hs (by linear_combination r6)
  · rw [piv_ab h0]; ring
  · rw [piv_ab h0]; ring
  · exact piv_bc h0 hs (by linear_combination r2)
  · exact piv_ba h0
  · exact piv_bc h0 hs (by linear_combination r3)
  · exact piv_bc h0 hs (by linear_combination r5)

theorem assignNeg1_ok {m : M3 K} (h : m.IsRot) (ht : 0 < m.m11 - m.m22 - m.m00 + 1) :
    (assignNeg1 m).sqNorm = 1 ∧ (assignNeg1 m).toMat = m := by
  obtain ⟨r1, r2, r3, r4, r5, r6⟩ := rank1_y h
  have hs := HasSqrt.sq _ ht.le
  have h0 := sqrt_ne ht
  apply toMat_of_products <;> simp only [assignNeg1]
  · exact piv_bc h0 hs (by linear_combination r1)
  · rw [piv_aa hs]; ring
  · exact piv_bc h0 hs (by linear_combination r4)
  · exact piv_bc h0 hs (by linear_combination r6)
  · rw [piv_ba h0]
  · exact piv_bc h0 hs (by linear_combination r2)
  · rw [piv_ab h0]; ring
  · exact piv_bc h0 hs (by linear_combination r3)
  · exact piv_ba h0
  · exact piv_bc h0 hs (by linear_combination r5)

theorem assignNeg2_ok {m : M3 K} (h : m.IsRot) (ht : 0 < m.m22 - m.m00 - m.m11 + 1) :
    (assignNeg2 m).sqNorm = 1 ∧ (assignNeg2 m).toMat = m := by
  obtain ⟨r1, r2, r3, r4, r5, r6⟩ := rank1_z h
  have hs := HasSqrt.sq _ ht.le
  have h0 := sqrt_ne ht
  apply toMat_of_products <;> simp only [assignNeg2]
  · exact piv_bc h0 hs (by linear_combination r1)
  · exact piv_bc h0 hs (by linear_combination r4)
  · rw [piv_aa hs]; ring
  · exact piv_bc h0 hs (by linear_combination r6)
  · exact piv_bc h0 hs (by linear_combination r2)
  · rw [piv_ba h0]
  · rw [piv_ba h0]
  · exact piv_bc h0 hs (by linear_combination r3)
  · exact piv_bc h0 hs (by linear_combination r5)
  · exact piv_ba h0

end field
end Quat
end Pin
