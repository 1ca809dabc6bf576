import Mathlib.Algebra.Module.Basic
import Mathlib.Algebra.Order.Field.Basic
import Mathlib.Tactic.Ring
import Mathlib.Tactic.LinearCombination
import Mathlib.Tactic.Abel

/-!
# 3-vectors and 3×3 matrices

Eigen's `Vector3` / `Matrix3` as plain records over an arbitrary scalar type `K`
(`include/pinocchio/spatial/fwd.hpp`, Eigen's `Matrix<Scalar,3,1>` and `Matrix<Scalar,3,3>`).
Simplification: storage order, alignment and expression templates are not modelled.
-/

namespace Pin

/-- Eigen `Vector3` (`Eigen::Matrix<Scalar,3,1>`). -/
@[ext] structure V3 (K : Type*) where
  x : K
  y : K
  z : K
deriving DecidableEq, Repr

/-- Eigen `Matrix3` (`Eigen::Matrix<Scalar,3,3>`), entry `mij` is `M(i,j)`. -/
@[ext] structure M3 (K : Type*) where
  m00 : K
  m01 : K
  m02 : K
  m10 : K
  m11 : K
  m12 : K
  m20 : K
  m21 : K
  m22 : K
deriving DecidableEq, Repr

namespace V3
variable {K : Type*}

instance [Zero K] : Zero (V3 K) := ⟨⟨0, 0, 0⟩⟩
instance [Add K] : Add (V3 K) := ⟨fun a b => ⟨a.x + b.x, a.y + b.y, a.z + b.z⟩⟩
instance [Neg K] : Neg (V3 K) := ⟨fun a => ⟨-a.x, -a.y, -a.z⟩⟩
instance [Sub K] : Sub (V3 K) := ⟨fun a b => ⟨a.x - b.x, a.y - b.y, a.z - b.z⟩⟩
instance [Mul K] : SMul K (V3 K) := ⟨fun k a => ⟨k * a.x, k * a.y, k * a.z⟩⟩

@[simp] theorem zero_x [Zero K] : (0 : V3 K).x = 0 := rfl
@[simp] theorem zero_y [Zero K] : (0 : V3 K).y = 0 := rfl
@[simp] theorem zero_z [Zero K] : (0 : V3 K).z = 0 := rfl
@[simp] theorem add_x [Add K] (a b : V3 K) : (a + b).x = a.x + b.x := rfl
@[simp] theorem add_y [Add K] (a b : V3 K) : (a + b).y = a.y + b.y := rfl
@[simp] theorem add_z [Add K] (a b : V3 K) : (a + b).z = a.z + b.z := rfl
@[simp] theorem neg_x [Neg K] (a : V3 K) : (-a).x = -a.x := rfl
@[simp] theorem neg_y [Neg K] (a : V3 K) : (-a).y = -a.y := rfl
@[simp] theorem neg_z [Neg K] (a : V3 K) : (-a).z = -a.z := rfl
@[simp] theorem sub_x [Sub K] (a b : V3 K) : (a - b).x = a.x - b.x := rfl
@[simp] theorem sub_y [Sub K] (a b : V3 K) : (a - b).y = a.y - b.y := rfl
@[simp] theorem sub_z [Sub K] (a b : V3 K) : (a - b).z = a.z - b.z := rfl
@[simp] theorem smul_x [Mul K] (k : K) (a : V3 K) : (k • a).x = k * a.x := rfl
@[simp] theorem smul_y [Mul K] (k : K) (a : V3 K) : (k • a).y = k * a.y := rfl
@[simp] theorem smul_z [Mul K] (k : K) (a : V3 K) : (k • a).z = k * a.z := rfl

instance [AddCommGroup K] : AddCommGroup (V3 K) where
  add_assoc a b c := by ext <;> simp [add_assoc]
  zero_add a := by ext <;> simp
  add_zero a := by ext <;> simp
  add_comm a b := by ext <;> simp [add_comm]
  neg_add_cancel a := by ext <;> simp
  sub_eq_add_neg a b := by ext <;> simp [sub_eq_add_neg]
  nsmul := nsmulRec
  zsmul := zsmulRec

instance [CommRing K] : Module K (V3 K) where
  one_smul a := by ext <;> simp
  mul_smul r s a := by ext <;> simp [mul_assoc]
  smul_zero r := by ext <;> simp
  smul_add r a b := by ext <;> simp [mul_add]
  add_smul r s a := by ext <;> simp [add_mul]
  zero_smul a := by ext <;> simp

/-- Eigen `a.dot(b)`. -/
def dot [CommRing K] (a b : V3 K) : K := a.x * b.x + a.y * b.y + a.z * b.z

/-- Eigen `a.cross(b)`. -/
def cross [CommRing K] (a b : V3 K) : V3 K :=
  ⟨a.y * b.z - a.z * b.y, a.z * b.x - a.x * b.z, a.x * b.y - a.y * b.x⟩

/-- Eigen `a.squaredNorm()`. -/
def sqNorm [CommRing K] (a : V3 K) : K := a.x * a.x + a.y * a.y + a.z * a.z

section
variable [CommRing K]
@[simp] theorem cross_x (a b : V3 K) : (cross a b).x = a.y * b.z - a.z * b.y := rfl
@[simp] theorem cross_y (a b : V3 K) : (cross a b).y = a.z * b.x - a.x * b.z := rfl
@[simp] theorem cross_z (a b : V3 K) : (cross a b).z = a.x * b.y - a.y * b.x := rfl

theorem dot_comm (a b : V3 K) : dot a b = dot b a := by simp only [dot]; ring
theorem dot_add (a b c : V3 K) : dot a (b + c) = dot a b + dot a c := by simp [dot]; ring
theorem add_dot (a b c : V3 K) : dot (a + b) c = dot a c + dot b c := by simp [dot]; ring
theorem smul_dot (k : K) (a b : V3 K) : dot (k • a) b = k * dot a b := by simp [dot]; ring
theorem dot_smul (k : K) (a b : V3 K) : dot a (k • b) = k * dot a b := by simp [dot]; ring
end
end V3

namespace M3
variable {K : Type*}

instance [Zero K] : Zero (M3 K) := ⟨⟨0, 0, 0, 0, 0, 0, 0, 0, 0⟩⟩
/-- Eigen `Matrix3::Identity()`. -/
instance [Zero K] [One K] : One (M3 K) := ⟨⟨1, 0, 0, 0, 1, 0, 0, 0, 1⟩⟩
instance [Add K] : Add (M3 K) := ⟨fun a b =>
  ⟨a.m00 + b.m00, a.m01 + b.m01, a.m02 + b.m02,
   a.m10 + b.m10, a.m11 + b.m11, a.m12 + b.m12,
   a.m20 + b.m20, a.m21 + b.m21, a.m22 + b.m22⟩⟩
instance [Sub K] : Sub (M3 K) := ⟨fun a b =>
  ⟨a.m00 - b.m00, a.m01 - b.m01, a.m02 - b.m02,
   a.m10 - b.m10, a.m11 - b.m11, a.m12 - b.m12,
   a.m20 - b.m20, a.m21 - b.m21, a.m22 - b.m22⟩⟩
instance [Neg K] : Neg (M3 K) := ⟨fun a =>
  ⟨-a.m00, -a.m01, -a.m02, -a.m10, -a.m11, -a.m12, -a.m20, -a.m21, -a.m22⟩⟩
instance [Mul K] : SMul K (M3 K) := ⟨fun k a =>
  ⟨k * a.m00, k * a.m01, k * a.m02, k * a.m10, k * a.m11, k * a.m12,
   k * a.m20, k * a.m21, k * a.m22⟩⟩

/-- Eigen matrix product. -/
instance [Add K] [Mul K] : Mul (M3 K) := ⟨fun a b =>
  ⟨a.m00 * b.m00 + a.m01 * b.m10 + a.m02 * b.m20,
   a.m00 * b.m01 + a.m01 * b.m11 + a.m02 * b.m21,
   a.m00 * b.m02 + a.m01 * b.m12 + a.m02 * b.m22,
   a.m10 * b.m00 + a.m11 * b.m10 + a.m12 * b.m20,
   a.m10 * b.m01 + a.m11 * b.m11 + a.m12 * b.m21,
   a.m10 * b.m02 + a.m11 * b.m12 + a.m12 * b.m22,
   a.m20 * b.m00 + a.m21 * b.m10 + a.m22 * b.m20,
   a.m20 * b.m01 + a.m21 * b.m11 + a.m22 * b.m21,
   a.m20 * b.m02 + a.m21 * b.m12 + a.m22 * b.m22⟩⟩

/-- Eigen `transpose()`. -/
def tr (a : M3 K) : M3 K := ⟨a.m00, a.m10, a.m20, a.m01, a.m11, a.m21, a.m02, a.m12, a.m22⟩

/-- Eigen matrix-vector product. -/
def mulVec [Add K] [Mul K] (a : M3 K) (v : V3 K) : V3 K :=
  ⟨a.m00 * v.x + a.m01 * v.y + a.m02 * v.z,
   a.m10 * v.x + a.m11 * v.y + a.m12 * v.z,
   a.m20 * v.x + a.m21 * v.y + a.m22 * v.z⟩

/-- Eigen `determinant()`. -/
def det [CommRing K] (a : M3 K) : K :=
  a.m00 * (a.m11 * a.m22 - a.m12 * a.m21) - a.m01 * (a.m10 * a.m22 - a.m12 * a.m20)
    + a.m02 * (a.m10 * a.m21 - a.m11 * a.m20)

/-- Columns `M.col(k)`. -/
def col0 (a : M3 K) : V3 K := ⟨a.m00, a.m10, a.m20⟩
/-- Columns `M.col(k)`. -/
def col1 (a : M3 K) : V3 K := ⟨a.m01, a.m11, a.m21⟩
/-- Columns `M.col(k)`. -/
def col2 (a : M3 K) : V3 K := ⟨a.m02, a.m12, a.m22⟩
/-- Assemble a matrix from its columns. -/
def ofCols (a b c : V3 K) : M3 K := ⟨a.x, b.x, c.x, a.y, b.y, c.y, a.z, b.z, c.z⟩

/-- `skew(v)`, `include/pinocchio/spatial/skew.hpp:21-37`. -/
def skew [Zero K] [Neg K] (v : V3 K) : M3 K := ⟨0, -v.z, v.y, v.z, 0, -v.x, -v.y, v.x, 0⟩

section simps
@[simp] theorem zero_m00 [Zero K] : (0 : M3 K).m00 = 0 := rfl
@[simp] theorem zero_m01 [Zero K] : (0 : M3 K).m01 = 0 := rfl
@[simp] theorem zero_m02 [Zero K] : (0 : M3 K).m02 = 0 := rfl
@[simp] theorem zero_m10 [Zero K] : (0 : M3 K).m10 = 0 := rfl
@[simp] theorem zero_m11 [Zero K] : (0 : M3 K).m11 = 0 := rfl
@[simp] theorem zero_m12 [Zero K] : (0 : M3 K).m12 = 0 := rfl
@[simp] theorem zero_m20 [Zero K] : (0 : M3 K).m20 = 0 := rfl
@[simp] theorem zero_m21 [Zero K] : (0 : M3 K).m21 = 0 := rfl
@[simp] theorem zero_m22 [Zero K] : (0 : M3 K).m22 = 0 := rfl
@[simp] theorem one_m00 [Zero K] [One K] : (1 : M3 K).m00 = 1 := rfl
@[simp] theorem one_m01 [Zero K] [One K] : (1 : M3 K).m01 = 0 := rfl
@[simp] theorem one_m02 [Zero K] [One K] : (1 : M3 K).m02 = 0 := rfl
@[simp] theorem one_m10 [Zero K] [One K] : (1 : M3 K).m10 = 0 := rfl
@[simp] theorem one_m11 [Zero K] [One K] : (1 : M3 K).m11 = 1 := rfl
@[simp] theorem one_m12 [Zero K] [One K] : (1 : M3 K).m12 = 0 := rfl
@[simp] theorem one_m20 [Zero K] [One K] : (1 : M3 K).m20 = 0 := rfl
@[simp] theorem one_m21 [Zero K] [One K] : (1 : M3 K).m21 = 0 := rfl
@[simp] theorem one_m22 [Zero K] [One K] : (1 : M3 K).m22 = 1 := rfl
@[simp] theorem add_m00 [Add K] (a b : M3 K) : (a + b).m00 = a.m00 + b.m00 := rfl
@[simp] theorem add_m01 [Add K] (a b : M3 K) : (a + b).m01 = a.m01 + b.m01 := rfl
@[simp] theorem add_m02 [Add K] (a b : M3 K) : (a + b).m02 = a.m02 + b.m02 := rfl
@[simp] theorem add_m10 [Add K] (a b : M3 K) : (a + b).m10 = a.m10 + b.m10 := rfl
@[simp] theorem add_m11 [Add K] (a b : M3 K) : (a + b).m11 = a.m11 + b.m11 := rfl
@[simp] theorem add_m12 [Add K] (a b : M3 K) : (a + b).m12 = a.m12 + b.m12 := rfl
@[simp] theorem add_m20 [Add K] (a b : M3 K) : (a + b).m20 = a.m20 + b.m20 := rfl
@[simp] theorem add_m21 [Add K] (a b : M3 K) : (a + b).m21 = a.m21 + b.m21 := rfl
@[simp] theorem add_m22 [Add K] (a b : M3 K) : (a + b).m22 = a.m22 + b.m22 := rfl
@[simp] theorem sub_m00 [Sub K] (a b : M3 K) : (a - b).m00 = a.m00 - b.m00 := rfl
@[simp] theorem sub_m01 [Sub K] (a b : M3 K) : (a - b).m01 = a.m01 - b.m01 := rfl
@[simp] theorem sub_m02 [Sub K] (a b : M3 K) : (a - b).m02 = a.m02 - b.m02 := rfl
@[simp] theorem sub_m10 [Sub K] (a b : M3 K) : (a - b).m10 = a.m10 - b.m10 := rfl
@[simp] theorem sub_m11 [Sub K] (a b : M3 K) : (a - b).m11 = a.m11 - b.m11 := rfl
@[simp] theorem sub_m12 [Sub K] (a b : M3 K) : (a - b).m12 = a.m12 - b.m12 := rfl
@[simp] theorem sub_m20 [Sub K] (a b : M3 K) : (a - b).m20 = a.m20 - b.m20 := rfl
@[simp] theorem sub_m21 [Sub K] (a b : M3 K) : (a - b).m21 = a.m21 - b.m21 := rfl
@[simp] theorem sub_m22 [Sub K] (a b : M3 K) : (a - b).m22 = a.m22 - b.m22 := rfl
@[simp] theorem neg_m00 [Neg K] (a : M3 K) : (-a).m00 = -a.m00 := rfl
@[simp] theorem neg_m01 [Neg K] (a : M3 K) : (-a).m01 = -a.m01 := rfl
@[simp] theorem neg_m02 [Neg K] (a : M3 K) : (-a).m02 = -a.m02 := rfl
@[simp] theorem neg_m10 [Neg K] (a : M3 K) : (-a).m10 = -a.m10 := rfl
@[simp] theorem neg_m11 [Neg K] (a : M3 K) : (-a).m11 = -a.m11 := rfl
@[simp] theorem neg_m12 [Neg K] (a : M3 K) : (-a).m12 = -a.m12 := rfl
@[simp] theorem neg_m20 [Neg K] (a : M3 K) : (-a).m20 = -a.m20 := rfl
@[simp] theorem neg_m21 [Neg K] (a : M3 K) : (-a).m21 = -a.m21 := rfl
@[simp] theorem neg_m22 [Neg K] (a : M3 K) : (-a).m22 = -a.m22 := rfl
@[simp] theorem smul_m00 [Mul K] (k : K) (a : M3 K) : (k • a).m00 = k * a.m00 := rfl
@[simp] theorem smul_m01 [Mul K] (k : K) (a : M3 K) : (k • a).m01 = k * a.m01 := rfl
@[simp] theorem smul_m02 [Mul K] (k : K) (a : M3 K) : (k • a).m02 = k * a.m02 := rfl
@[simp] theorem smul_m10 [Mul K] (k : K) (a : M3 K) : (k • a).m10 = k * a.m10 := rfl
@[simp] theorem smul_m11 [Mul K] (k : K) (a : M3 K) : (k • a).m11 = k * a.m11 := rfl
@[simp] theorem smul_m12 [Mul K] (k : K) (a : M3 K) : (k • a).m12 = k * a.m12 := rfl
@[simp] theorem smul_m20 [Mul K] (k : K) (a : M3 K) : (k • a).m20 = k * a.m20 := rfl
@[simp] theorem smul_m21 [Mul K] (k : K) (a : M3 K) : (k • a).m21 = k * a.m21 := rfl
@[simp] theorem smul_m22 [Mul K] (k : K) (a : M3 K) : (k • a).m22 = k * a.m22 := rfl

variable [Add K] [Mul K] (a b : M3 K) (v : V3 K)
@[simp] theorem mul_m00 : (a * b).m00 = a.m00 * b.m00 + a.m01 * b.m10 + a.m02 * b.m20 := rfl
@[simp] theorem mul_m01 : (a * b).m01 = a.m00 * b.m01 + a.m01 * b.m11 + a.m02 * b.m21 := rfl
@[simp] theorem mul_m02 : (a * b).m02 = a.m00 * b.m02 + a.m01 * b.m12 + a.m02 * b.m22 := rfl
@[simp] theorem mul_m10 : (a * b).m10 = a.m10 * b.m00 + a.m11 * b.m10 + a.m12 * b.m20 := rfl
@[simp] theorem mul_m11 : (a * b).m11 = a.m10 * b.m01 + a.m11 * b.m11 + a.m12 * b.m21 := rfl
@[simp] theorem mul_m12 : (a * b).m12 = a.m10 * b.m02 + a.m11 * b.m12 + a.m12 * b.m22 := rfl
@[simp] theorem mul_m20 : (a * b).m20 = a.m20 * b.m00 + a.m21 * b.m10 + a.m22 * b.m20 := rfl
@[simp] theorem mul_m21 : (a * b).m21 = a.m20 * b.m01 + a.m21 * b.m11 + a.m22 * b.m21 := rfl
@[simp] theorem mul_m22 : (a * b).m22 = a.m20 * b.m02 + a.m21 * b.m12 + a.m22 * b.m22 := rfl
@[simp] theorem mulVec_x : (a.mulVec v).x = a.m00 * v.x + a.m01 * v.y + a.m02 * v.z := rfl
@[simp] theorem mulVec_y : (a.mulVec v).y = a.m10 * v.x + a.m11 * v.y + a.m12 * v.z := rfl
@[simp] theorem mulVec_z : (a.mulVec v).z = a.m20 * v.x + a.m21 * v.y + a.m22 * v.z := rfl
omit [Add K] [Mul K]
@[simp] theorem tr_m00 : a.tr.m00 = a.m00 := rfl
@[simp] theorem tr_m01 : a.tr.m01 = a.m10 := rfl
@[simp] theorem tr_m02 : a.tr.m02 = a.m20 := rfl
@[simp] theorem tr_m10 : a.tr.m10 = a.m01 := rfl
@[simp] theorem tr_m11 : a.tr.m11 = a.m11 := rfl
@[simp] theorem tr_m12 : a.tr.m12 = a.m21 := rfl
@[simp] theorem tr_m20 : a.tr.m20 = a.m02 := rfl
@[simp] theorem tr_m21 : a.tr.m21 = a.m12 := rfl
@[simp] theorem tr_m22 : a.tr.m22 = a.m22 := rfl
@[simp] theorem tr_tr : a.tr.tr = a := rfl
end simps

section ring
variable [CommRing K] (a b c : M3 K) (u v w : V3 K)

theorem mul_assoc' : a * b * c = a * (b * c) := by ext <;> simp <;> ring
theorem one_mul' : 1 * a = a := by ext <;> simp
theorem mul_one' : a * 1 = a := by ext <;> simp
theorem tr_mul : (a * b).tr = b.tr * a.tr := by ext <;> simp <;> ring
@[simp] theorem tr_one : (1 : M3 K).tr = 1 := rfl
theorem mulVec_mulVec : (a * b).mulVec v = a.mulVec (b.mulVec v) := by ext <;> simp <;> ring
@[simp] theorem one_mulVec : (1 : M3 K).mulVec v = v := by ext <;> simp
theorem mulVec_add : a.mulVec (v + w) = a.mulVec v + a.mulVec w := by ext <;> simp <;> ring
theorem mulVec_sub : a.mulVec (v - w) = a.mulVec v - a.mulVec w := by ext <;> simp <;> ring
theorem mulVec_neg : a.mulVec (-v) = -a.mulVec v := by ext <;> simp <;> ring
theorem mulVec_smul (k : K) : a.mulVec (k • v) = k • a.mulVec v := by ext <;> simp <;> ring
@[simp] theorem mulVec_zero : a.mulVec 0 = 0 := by ext <;> simp
theorem skew_mulVec : (skew u).mulVec v = u.cross v := by ext <;> simp [skew] <;> ring
theorem det_mul : (a * b).det = a.det * b.det := by simp [det]; ring
theorem det_tr : a.tr.det = a.det := by simp [det]; ring
theorem dot_mulVec : V3.dot u (a.mulVec v) = V3.dot (a.tr.mulVec u) v := by simp [V3.dot]; ring

/-- Rotation matrices: `Rᵀ R = 1` and `det R = 1`
(what `isUnitary` + `det>0` check, `include/pinocchio/math/matrix.hpp`). -/
structure IsRot (R : M3 K) : Prop where
  tr_mul : R.tr * R = 1
  det : R.det = 1

/-- Classical adjugate (only used in proofs). -/
def adj : M3 K :=
  ⟨a.m11 * a.m22 - a.m12 * a.m21, a.m02 * a.m21 - a.m01 * a.m22, a.m01 * a.m12 - a.m02 * a.m11,
   a.m12 * a.m20 - a.m10 * a.m22, a.m00 * a.m22 - a.m02 * a.m20, a.m02 * a.m10 - a.m00 * a.m12,
   a.m10 * a.m21 - a.m11 * a.m20, a.m01 * a.m20 - a.m00 * a.m21, a.m00 * a.m11 - a.m01 * a.m10⟩

theorem mul_adj : a * a.adj = a.det • (1 : M3 K) := by ext <;> simp [adj, det] <;> ring

theorem adj_tr_cross : a.adj.tr.mulVec (u.cross v) = (a.mulVec u).cross (a.mulVec v) := by
  ext <;> simp [adj] <;> ring

namespace IsRot
variable {a b c} {R S : M3 K}

theorem tr_eq_adj (h : R.IsRot) : R.tr = R.adj := by
  have h1 : R * R.adj = 1 := by rw [mul_adj, h.det]; ext <;> simp
  calc R.tr = R.tr * (R * R.adj) := by rw [h1, mul_one']
    _ = R.adj := by rw [← mul_assoc', h.tr_mul, one_mul']

theorem mul_tr (h : R.IsRot) : R * R.tr = 1 := by
  rw [h.tr_eq_adj, mul_adj, h.det]; ext <;> simp

theorem one : (1 : M3 K).IsRot := ⟨by ext <;> simp, by simp [M3.det]⟩

theorem mul (hR : R.IsRot) (hS : S.IsRot) : (R * S).IsRot where
  tr_mul := by
    rw [M3.tr_mul, mul_assoc', ← mul_assoc' R.tr R S, hR.tr_mul, one_mul', hS.tr_mul]
  det := by rw [det_mul, hR.det, hS.det, mul_one]

theorem tr (h : R.IsRot) : R.tr.IsRot where
  tr_mul := by rw [tr_tr]; exact h.mul_tr
  det := by rw [det_tr, h.det]

theorem tr_mulVec_mulVec (h : R.IsRot) (v : V3 K) : R.tr.mulVec (R.mulVec v) = v := by
  rw [← mulVec_mulVec, h.tr_mul, one_mulVec]

theorem mulVec_tr_mulVec (h : R.IsRot) (v : V3 K) : R.mulVec (R.tr.mulVec v) = v := by
  rw [← mulVec_mulVec, h.mul_tr, one_mulVec]

theorem mulVec_cross (h : R.IsRot) (u v : V3 K) :
    R.mulVec (u.cross v) = (R.mulVec u).cross (R.mulVec v) := by
  rw [← adj_tr_cross, ← h.tr_eq_adj, tr_tr]

theorem dot_mulVec (h : R.IsRot) (u v : V3 K) :
    V3.dot (R.mulVec u) (R.mulVec v) = V3.dot u v := by
  rw [M3.dot_mulVec, h.tr_mulVec_mulVec]

end IsRot
end ring
end M3
end Pin
