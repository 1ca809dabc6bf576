import Verif.Spatial.SE3
import Mathlib.Tactic.FieldSimp

/-!
# Symmetric3, 6×6 matrices and spatial inertias

Models `include/pinocchio/spatial/{symmetric3,inertia,skew}.hpp` and the congruence
`SE3actOn` of `include/pinocchio/algorithm/aba.hxx:22-76`.
-/

namespace Pin
variable {K : Type*}

/-- Machine epsilon `Eigen::NumTraits<Scalar>::epsilon()`: an arbitrary positive constant. -/
class HasEps (K : Type*) [Zero K] [LT K] where
  eps : K
  eps_pos : 0 < eps

/-! ## more 3×3 matrix algebra -/
namespace M3
instance [AddCommGroup K] : AddCommGroup (M3 K) where
  add_assoc a b c := by ext <;> simp [add_assoc]
  zero_add a := by ext <;> simp
  add_zero a := by ext <;> simp
  add_comm a b := by ext <;> simp [add_comm]
  neg_add_cancel a := by ext <;> simp
  sub_eq_add_neg a b := by ext <;> simp [sub_eq_add_neg]
  nsmul := nsmulRec
  zsmul := zsmulRec

instance [CommRing K] : Module K (M3 K) where
  one_smul a := by ext <;> simp
  mul_smul r s a := by ext <;> simp [mul_assoc]
  smul_zero r := by ext <;> simp
  smul_add r a b := by ext <;> simp [mul_add]
  add_smul r s a := by ext <;> simp [add_mul]
  zero_smul a := by ext <;> simp

/-- `alphaSkew`, `spatial/skew.hpp:133-152`. -/
def alphaSkew [CommRing K] (al : K) (v : V3 K) : M3 K :=
  ⟨0, -v.z * al, v.y * al, -(-v.z * al), 0, -v.x * al, -(v.y * al), -(-v.x * al), 0⟩

/-- `skewSquare(u,v)` = `v uᵀ - (u·v) I`, `spatial/skew.hpp:181-197`. -/
def skewSquare [CommRing K] (u v : V3 K) : M3 K :=
  ⟨v.x * u.x - u.dot v, v.x * u.y, v.x * u.z,
   v.y * u.x, v.y * u.y - u.dot v, v.y * u.z,
   v.z * u.x, v.z * u.y, v.z * u.z - u.dot v⟩

/-- `cross(v, M)`: column-wise cross product, `spatial/skew.hpp:227-244`. -/
def crossM [CommRing K] (v : V3 K) (M : M3 K) : M3 K :=
  ⟨v.y * M.m20 - v.z * M.m10, v.y * M.m21 - v.z * M.m11, v.y * M.m22 - v.z * M.m12,
   v.z * M.m00 - v.x * M.m20, v.z * M.m01 - v.x * M.m21, v.z * M.m02 - v.x * M.m22,
   v.x * M.m10 - v.y * M.m00, v.x * M.m11 - v.y * M.m01, v.x * M.m12 - v.y * M.m02⟩

/-- `unSkew`, `spatial/skew.hpp:92-104`. -/
def unSkew [Field K] (M : M3 K) : V3 K :=
  ⟨1 / 2 * (M.m21 - M.m12), 1 / 2 * (M.m02 - M.m20), 1 / 2 * (M.m10 - M.m01)⟩

theorem add_mulVec [CommRing K] (a b : M3 K) (v : V3 K) :
    (a + b).mulVec v = a.mulVec v + b.mulVec v := by ext <;> simp <;> ring
theorem smul_mulVec [CommRing K] (k : K) (a : M3 K) (v : V3 K) :
    (k • a).mulVec v = k • a.mulVec v := by ext <;> simp <;> ring
@[simp] theorem zero_mulVec [CommRing K] (v : V3 K) : (0 : M3 K).mulVec v = 0 := by ext <;> simp
end M3

/-! ## 6×6 matrices by 3×3 blocks -/

/-- A 6×6 matrix split in the blocks (LINEAR,LINEAR), (LINEAR,ANGULAR), (ANGULAR,LINEAR),
(ANGULAR,ANGULAR), the way `inertia.hpp`, `se3-tpl.hpp` and `aba.hxx` address `Matrix6`. -/
@[ext] structure M6 (K : Type*) where
  ll : M3 K
  la : M3 K
  al : M3 K
  aa : M3 K
deriving DecidableEq, Repr

namespace M6
instance [Zero K] : Zero (M6 K) := ⟨⟨0, 0, 0, 0⟩⟩
instance [Zero K] [One K] : One (M6 K) := ⟨⟨1, 0, 0, 1⟩⟩
instance [Add K] : Add (M6 K) := ⟨fun a b => ⟨a.ll + b.ll, a.la + b.la, a.al + b.al, a.aa + b.aa⟩⟩
instance [Sub K] : Sub (M6 K) := ⟨fun a b => ⟨a.ll - b.ll, a.la - b.la, a.al - b.al, a.aa - b.aa⟩⟩
instance [Neg K] : Neg (M6 K) := ⟨fun a => ⟨-a.ll, -a.la, -a.al, -a.aa⟩⟩
instance [Mul K] : SMul K (M6 K) := ⟨fun k a => ⟨k • a.ll, k • a.la, k • a.al, k • a.aa⟩⟩
/-- Eigen 6×6 product. -/
instance [Add K] [Mul K] : Mul (M6 K) := ⟨fun a b =>
  ⟨a.ll * b.ll + a.la * b.al, a.ll * b.la + a.la * b.aa,
   a.al * b.ll + a.aa * b.al, a.al * b.la + a.aa * b.aa⟩⟩
/-- transpose -/
def tr (a : M6 K) : M6 K := ⟨a.ll.tr, a.al.tr, a.la.tr, a.aa.tr⟩

@[simp] theorem zero_ll [Zero K] : (0 : M6 K).ll = 0 := rfl
@[simp] theorem zero_la [Zero K] : (0 : M6 K).la = 0 := rfl
@[simp] theorem zero_al [Zero K] : (0 : M6 K).al = 0 := rfl
@[simp] theorem zero_aa [Zero K] : (0 : M6 K).aa = 0 := rfl
@[simp] theorem one_ll [Zero K] [One K] : (1 : M6 K).ll = 1 := rfl
@[simp] theorem one_la [Zero K] [One K] : (1 : M6 K).la = 0 := rfl
@[simp] theorem one_al [Zero K] [One K] : (1 : M6 K).al = 0 := rfl
@[simp] theorem one_aa [Zero K] [One K] : (1 : M6 K).aa = 1 := rfl
@[simp] theorem add_ll [Add K] (a b : M6 K) : (a + b).ll = a.ll + b.ll := rfl
@[simp] theorem add_la [Add K] (a b : M6 K) : (a + b).la = a.la + b.la := rfl
@[simp] theorem add_al [Add K] (a b : M6 K) : (a + b).al = a.al + b.al := rfl
@[simp] theorem add_aa [Add K] (a b : M6 K) : (a + b).aa = a.aa + b.aa := rfl
@[simp] theorem sub_ll [Sub K] (a b : M6 K) : (a - b).ll = a.ll - b.ll := rfl
@[simp] theorem sub_la [Sub K] (a b : M6 K) : (a - b).la = a.la - b.la := rfl
@[simp] theorem sub_al [Sub K] (a b : M6 K) : (a - b).al = a.al - b.al := rfl
@[simp] theorem sub_aa [Sub K] (a b : M6 K) : (a - b).aa = a.aa - b.aa := rfl
@[simp] theorem neg_ll [Neg K] (a : M6 K) : (-a).ll = -a.ll := rfl
@[simp] theorem neg_la [Neg K] (a : M6 K) : (-a).la = -a.la := rfl
@[simp] theorem neg_al [Neg K] (a : M6 K) : (-a).al = -a.al := rfl
@[simp] theorem neg_aa [Neg K] (a : M6 K) : (-a).aa = -a.aa := rfl
@[simp] theorem smul_ll [Mul K] (k : K) (a : M6 K) : (k • a).ll = k • a.ll := rfl
@[simp] theorem smul_la [Mul K] (k : K) (a : M6 K) : (k • a).la = k • a.la := rfl
@[simp] theorem smul_al [Mul K] (k : K) (a : M6 K) : (k • a).al = k • a.al := rfl
@[simp] theorem smul_aa [Mul K] (k : K) (a : M6 K) : (k • a).aa = k • a.aa := rfl
@[simp] theorem mul_ll [Add K] [Mul K] (a b : M6 K) : (a * b).ll = a.ll * b.ll + a.la * b.al := rfl
@[simp] theorem mul_la [Add K] [Mul K] (a b : M6 K) : (a * b).la = a.ll * b.la + a.la * b.aa := rfl
@[simp] theorem mul_al [Add K] [Mul K] (a b : M6 K) : (a * b).al = a.al * b.ll + a.aa * b.al := rfl
@[simp] theorem mul_aa [Add K] [Mul K] (a b : M6 K) : (a * b).aa = a.al * b.la + a.aa * b.aa := rfl
@[simp] theorem tr_ll (a : M6 K) : a.tr.ll = a.ll.tr := rfl
@[simp] theorem tr_la (a : M6 K) : a.tr.la = a.al.tr := rfl
@[simp] theorem tr_al (a : M6 K) : a.tr.al = a.la.tr := rfl
@[simp] theorem tr_aa (a : M6 K) : a.tr.aa = a.aa.tr := rfl

instance [AddCommGroup K] : AddCommGroup (M6 K) where
  add_assoc a b c := by ext1 <;> simp [add_assoc]
  zero_add a := by ext1 <;> simp
  add_zero a := by ext1 <;> simp
  add_comm a b := by ext1 <;> simp [add_comm]
  neg_add_cancel a := by ext1 <;> simp
  sub_eq_add_neg a b := by ext1 <;> simp [sub_eq_add_neg]
  nsmul := nsmulRec
  zsmul := zsmulRec

instance [CommRing K] : Module K (M6 K) where
  one_smul a := by ext1 <;> simp
  mul_smul r s a := by ext1 <;> simp [mul_smul]
  smul_zero r := by ext1 <;> simp
  smul_add r a b := by ext <;> simp <;> ring
  add_smul r s a := by ext <;> simp <;> ring
  zero_smul a := by ext <;> simp

/-- 6×6 matrix applied to a motion, giving a force (`I.matrix() * v.toVector()`). -/
def mulMF [Add K] [Mul K] (a : M6 K) (v : Motion K) : Force K :=
  ⟨a.ll.mulVec v.lin + a.la.mulVec v.ang, a.al.mulVec v.lin + a.aa.mulVec v.ang⟩
/-- 6×6 matrix applied to a motion, giving a motion (`toActionMatrix() * v.toVector()`). -/
def mulMM [Add K] [Mul K] (a : M6 K) (v : Motion K) : Motion K :=
  ⟨a.ll.mulVec v.lin + a.la.mulVec v.ang, a.al.mulVec v.lin + a.aa.mulVec v.ang⟩
/-- 6×6 matrix applied to a force, giving a force. -/
def mulFF [Add K] [Mul K] (a : M6 K) (f : Force K) : Force K :=
  ⟨a.ll.mulVec f.lin + a.la.mulVec f.ang, a.al.mulVec f.lin + a.aa.mulVec f.ang⟩
/-- 6×6 matrix applied to a force, giving a motion (`I.inverse() * f.toVector()`). -/
def mulFM [Add K] [Mul K] (a : M6 K) (f : Force K) : Motion K :=
  ⟨a.ll.mulVec f.lin + a.la.mulVec f.ang, a.al.mulVec f.lin + a.aa.mulVec f.ang⟩

/-- symmetric 6×6 matrix -/
def IsSymm (a : M6 K) : Prop := a.tr = a

section
variable [CommRing K]
theorem mulMF_add (a : M6 K) (v w : Motion K) : a.mulMF (v + w) = a.mulMF v + a.mulMF w := by
  ext <;> simp [mulMF] <;> ring
theorem mulMF_sub (a : M6 K) (v w : Motion K) : a.mulMF (v - w) = a.mulMF v - a.mulMF w := by
  ext <;> simp [mulMF] <;> ring
theorem mulMF_smul (a : M6 K) (k : K) (v : Motion K) : a.mulMF (k • v) = k • a.mulMF v := by
  ext <;> simp [mulMF] <;> ring
@[simp] theorem mulMF_zero (a : M6 K) : a.mulMF 0 = 0 := by ext <;> simp [mulMF]
theorem add_mulMF (a b : M6 K) (v : Motion K) : (a + b).mulMF v = a.mulMF v + b.mulMF v := by
  ext <;> simp [mulMF] <;> ring
theorem sub_mulMF (a b : M6 K) (v : Motion K) : (a - b).mulMF v = a.mulMF v - b.mulMF v := by
  ext <;> simp [mulMF] <;> ring
@[simp] theorem zero_mulMF (v : Motion K) : (0 : M6 K).mulMF v = 0 := by ext <;> simp [mulMF]
theorem dot_mulMF (a : M6 K) (v w : Motion K) : v.dot (a.mulMF w) = w.dot (a.tr.mulMF v) := by
  simp [mulMF, Motion.dot, V3.dot]; ring
theorem IsSymm.dot_comm {a : M6 K} (h : a.IsSymm) (v w : Motion K) :
    v.dot (a.mulMF w) = w.dot (a.mulMF v) := by rw [dot_mulMF, h]
theorem isSymm_add {a b : M6 K} (ha : a.IsSymm) (hb : b.IsSymm) : (a + b).IsSymm := by
  have h : ∀ x y : M3 K, (x + y).tr = x.tr + y.tr := fun x y => rfl
  unfold IsSymm at *
  have a1 := congrArg M6.ll ha; have a2 := congrArg M6.la ha
  have a3 := congrArg M6.al ha; have a4 := congrArg M6.aa ha
  have b1 := congrArg M6.ll hb; have b2 := congrArg M6.la hb
  have b3 := congrArg M6.al hb; have b4 := congrArg M6.aa hb
  simp only [tr_ll, tr_la, tr_al, tr_aa] at a1 a2 a3 a4 b1 b2 b3 b4
  ext1 <;> simp only [tr_ll, tr_la, tr_al, tr_aa, add_ll, add_la, add_al, add_aa, h,
    a1, a2, a3, a4, b1, b2, b3, b4]
theorem isSymm_zero : (0 : M6 K).IsSymm := rfl

theorem ext_mulMF {a b : M6 K} (h : ∀ v, a.mulMF v = b.mulMF v) : a = b := by
  have e1 := h ⟨⟨1, 0, 0⟩, 0⟩
  have e2 := h ⟨⟨0, 1, 0⟩, 0⟩
  have e3 := h ⟨⟨0, 0, 1⟩, 0⟩
  have e4 := h ⟨0, ⟨1, 0, 0⟩⟩
  have e5 := h ⟨0, ⟨0, 1, 0⟩⟩
  have e6 := h ⟨0, ⟨0, 0, 1⟩⟩
  simp [mulMF, Force.ext_iff, V3.ext_iff] at e1 e2 e3 e4 e5 e6
  ext <;> simp_all
end
end M6

/-! ## Action matrices -/
namespace SE3
variable [CommRing K]
/-- `toActionMatrix_impl`, `spatial/se3-tpl.hpp:181-193`. -/
def toActionMatrix (M : SE3 K) : M6 K :=
  ⟨M.rot, M3.ofCols (M.trans.cross M.rot.col0) (M.trans.cross M.rot.col1) (M.trans.cross M.rot.col2),
   0, M.rot⟩

/-- `CartesianAxis<k>::cross(v)` = `e_k × v`, `spatial/cartesian-axis.hpp:94-130`. -/
def axisCross0 (v : V3 K) : V3 K := ⟨0, -v.z, v.y⟩
/-- see `axisCross0` -/
def axisCross1 (v : V3 K) : V3 K := ⟨v.z, 0, -v.x⟩
/-- see `axisCross0` -/
def axisCross2 (v : V3 K) : V3 K := ⟨-v.y, v.x, 0⟩

/-- `toActionMatrixInverse_impl`, `spatial/se3-tpl.hpp:204-225`: column `k` of the upper right block
is `Rᵀ (e_k × t)`. -/
def toActionMatrixInverse (M : SE3 K) : M6 K :=
  ⟨M.rot.tr, M3.ofCols (M.rot.tr.mulVec (axisCross0 M.trans)) (M.rot.tr.mulVec (axisCross1 M.trans))
      (M.rot.tr.mulVec (axisCross2 M.trans)), 0, M.rot.tr⟩

/-- `toDualActionMatrix_impl`, `spatial/se3-tpl.hpp:235-247`. -/
def toDualActionMatrix (M : SE3 K) : M6 K :=
  ⟨M.rot, 0,
   M3.ofCols (M.trans.cross M.rot.col0) (M.trans.cross M.rot.col1) (M.trans.cross M.rot.col2), M.rot⟩

/-- Rows of a 3×3 block incremented by vectors (`Do.row(k) += v_k`). -/
def addRows (D : M3 K) (a b c : V3 K) : M3 K :=
  D + (M3.ofCols a b c).tr
/-- Columns of a 3×3 block incremented by vectors (`Do.col(k) += v_k`). -/
def addCols (D : M3 K) (a b c : V3 K) : M3 K :=
  D + M3.ofCols a b c

/-- `internal::SE3actOn::run`, `algorithm/aba.hxx:24-75`: congruence of a (symmetric) 6×6 inertia by a
placement. Reads only the blocks A (ll), B (la), D (aa) of the argument, statement by statement. -/
def actOn (M : SE3 K) (I : M6 K) : M6 K :=
  let R := M.rot
  let t := M.trans
  let Ao := R * I.ll * R.tr
  let Bo := R * I.la * R.tr
  let Do := R * I.aa * R.tr
  let Do := addRows Do (t.cross Bo.col0) (t.cross Bo.col1) (t.cross Bo.col2)
  let Co := M3.ofCols (t.cross Ao.col0) (t.cross Ao.col1) (t.cross Ao.col2)
  let Co := Co + Bo.tr
  let Bo := Co.tr
  let Do := addCols Do (t.cross Bo.col0) (t.cross Bo.col1) (t.cross Bo.col2)
  ⟨Ao, Bo, Co, Do⟩
end SE3

namespace Motion
variable [CommRing K]
/-- `toActionMatrix_impl`, `spatial/motion-dense.hpp:52-61`. -/
def toActionMatrix (v : Motion K) : M6 K := ⟨M3.skew v.ang, M3.skew v.lin, 0, M3.skew v.ang⟩
/-- `toDualActionMatrix_impl`, `spatial/motion-dense.hpp:63-72`. -/
def toDualActionMatrix (v : Motion K) : M6 K := ⟨M3.skew v.ang, 0, M3.skew v.lin, M3.skew v.ang⟩
end Motion

/-! ## Symmetric3 -/

/-- `Symmetric3Tpl`, `spatial/symmetric3.hpp`: `m_data = (xx, xy, yy, xz, yz, zz)`. -/
@[ext] structure Sym3 (K : Type*) where
  xx : K
  xy : K
  yy : K
  xz : K
  yz : K
  zz : K
deriving DecidableEq, Repr

namespace Sym3
instance [Zero K] : Zero (Sym3 K) := ⟨⟨0, 0, 0, 0, 0, 0⟩⟩
/-- `operator+`, `spatial/symmetric3.hpp:461-464`. -/
instance [Add K] : Add (Sym3 K) := ⟨fun a b =>
  ⟨a.xx + b.xx, a.xy + b.xy, a.yy + b.yy, a.xz + b.xz, a.yz + b.yz, a.zz + b.zz⟩⟩
/-- `operator-`, `spatial/symmetric3.hpp:466-469`. -/
instance [Sub K] : Sub (Sym3 K) := ⟨fun a b =>
  ⟨a.xx - b.xx, a.xy - b.xy, a.yy - b.yy, a.xz - b.xz, a.yz - b.yz, a.zz - b.zz⟩⟩
instance [Zero K] [One K] : One (Sym3 K) := ⟨⟨1, 0, 1, 0, 0, 1⟩⟩
@[simp] theorem zero_xx [Zero K] : (0 : Sym3 K).xx = 0 := rfl
@[simp] theorem zero_xy [Zero K] : (0 : Sym3 K).xy = 0 := rfl
@[simp] theorem zero_yy [Zero K] : (0 : Sym3 K).yy = 0 := rfl
@[simp] theorem zero_xz [Zero K] : (0 : Sym3 K).xz = 0 := rfl
@[simp] theorem zero_yz [Zero K] : (0 : Sym3 K).yz = 0 := rfl
@[simp] theorem zero_zz [Zero K] : (0 : Sym3 K).zz = 0 := rfl
@[simp] theorem add_xx [Add K] (a b : Sym3 K) : (a + b).xx = a.xx + b.xx := rfl
@[simp] theorem add_xy [Add K] (a b : Sym3 K) : (a + b).xy = a.xy + b.xy := rfl
@[simp] theorem add_yy [Add K] (a b : Sym3 K) : (a + b).yy = a.yy + b.yy := rfl
@[simp] theorem add_xz [Add K] (a b : Sym3 K) : (a + b).xz = a.xz + b.xz := rfl
@[simp] theorem add_yz [Add K] (a b : Sym3 K) : (a + b).yz = a.yz + b.yz := rfl
@[simp] theorem add_zz [Add K] (a b : Sym3 K) : (a + b).zz = a.zz + b.zz := rfl
@[simp] theorem sub_xx [Sub K] (a b : Sym3 K) : (a - b).xx = a.xx - b.xx := rfl
@[simp] theorem sub_xy [Sub K] (a b : Sym3 K) : (a - b).xy = a.xy - b.xy := rfl
@[simp] theorem sub_yy [Sub K] (a b : Sym3 K) : (a - b).yy = a.yy - b.yy := rfl
@[simp] theorem sub_xz [Sub K] (a b : Sym3 K) : (a - b).xz = a.xz - b.xz := rfl
@[simp] theorem sub_yz [Sub K] (a b : Sym3 K) : (a - b).yz = a.yz - b.yz := rfl
@[simp] theorem sub_zz [Sub K] (a b : Sym3 K) : (a - b).zz = a.zz - b.zz := rfl

/-- `matrix()`, `spatial/symmetric3.hpp:304-317`. -/
def matrix (s : Sym3 K) : M3 K := ⟨s.xx, s.xy, s.xz, s.xy, s.yy, s.yz, s.xz, s.yz, s.zz⟩

section
variable [CommRing K]
/-- `rhsMult`, `spatial/symmetric3.hpp:489-503`. -/
def mulVec (s : Sym3 K) (v : V3 K) : V3 K :=
  ⟨s.xx * v.x + s.xy * v.y + s.xz * v.z,
   s.xy * v.x + s.yy * v.y + s.yz * v.z,
   s.xz * v.x + s.yz * v.y + s.zz * v.z⟩

/-- `vtiv`, `spatial/symmetric3.hpp:323-338`. -/
def vtiv (s : Sym3 K) (v : V3 K) : K :=
  s.xx * (v.x * v.x) + s.yy * (v.y * v.y) + s.zz * (v.z * v.z)
    + 2 * (s.xy * (v.x * v.y) + s.xz * (v.x * v.z) + s.yz * (v.y * v.z))

/-- `SkewSquare::operator Symmetric3Tpl`, `spatial/symmetric3.hpp:195-199`. -/
def skewSquare (v : V3 K) : Sym3 K :=
  ⟨-v.y * v.y - v.z * v.z, v.x * v.y, -v.x * v.x - v.z * v.z, v.x * v.z, v.y * v.z,
   -v.x * v.x - v.y * v.y⟩

/-- `AlphaSkewSquare::operator Symmetric3Tpl`, `spatial/symmetric3.hpp:238-244`. -/
def alphaSkewSquare (m : K) (v : V3 K) : Sym3 K :=
  ⟨-m * (v.y * v.y + v.z * v.z), m * v.x * v.y, -m * (v.x * v.x + v.z * v.z), m * v.x * v.z,
   m * v.y * v.z, -m * (v.x * v.x + v.y * v.y)⟩

/-- `operator-(AlphaSkewSquare)`, `spatial/symmetric3.hpp:252-259`. -/
def subAlphaSkewSquare (s : Sym3 K) (m : K) (v : V3 K) : Sym3 K :=
  ⟨s.xx + m * (v.y * v.y + v.z * v.z), s.xy - m * v.x * v.y, s.yy + m * (v.x * v.x + v.z * v.z),
   s.xz - m * v.x * v.z, s.yz - m * v.y * v.z, s.zz + m * (v.x * v.x + v.y * v.y)⟩

/-- `operator-(SkewSquare)`, `spatial/symmetric3.hpp:202-208`. -/
def subSkewSquare (s : Sym3 K) (v : V3 K) : Sym3 K :=
  ⟨s.xx + v.y * v.y + v.z * v.z, s.xy - v.x * v.y, s.yy + v.x * v.x + v.z * v.z,
   s.xz - v.x * v.z, s.yz - v.y * v.z, s.zz + v.x * v.x + v.y * v.y⟩

/-- `vxs`, `spatial/symmetric3.hpp:350-382`. -/
def vxs (v : V3 K) (s : Sym3 K) : M3 K :=
  ⟨s.xz * v.y - s.xy * v.z, s.yz * v.y - s.yy * v.z, s.zz * v.y - s.yz * v.z,
   s.xx * v.z - s.xz * v.x, s.xy * v.z - s.yz * v.x, s.xz * v.z - s.zz * v.x,
   s.xy * v.x - s.xx * v.y, s.yy * v.x - s.xy * v.y, s.yz * v.x - s.xz * v.y⟩

/-- `svx`, `spatial/symmetric3.hpp:411-443`. -/
def svx (v : V3 K) (s : Sym3 K) : M3 K :=
  ⟨s.xy * v.z - s.xz * v.y, s.xz * v.x - s.xx * v.z, s.xx * v.y - s.xy * v.x,
   s.yy * v.z - s.yz * v.y, s.yz * v.x - s.xy * v.z, s.xy * v.y - s.yy * v.x,
   s.yz * v.z - s.zz * v.y, s.zz * v.x - s.xz * v.z, s.xz * v.y - s.yz * v.x⟩

/-- `rotate`, `spatial/symmetric3.hpp:561-601` (with `decomposeltI`, 552-558), statement by statement. -/
def rotate (s : Sym3 K) (R : M3 K) : Sym3 K :=
  let l00 := s.xx - s.zz
  let l01 := s.xy
  let l10 := s.xy
  let l11 := s.yy - s.zz
  let l20 := 2 * s.xz
  let l21 := s.yz + s.yz
  -- Y = R.block<2,3>(1,0) * L
  let y00 := R.m10 * l00 + R.m11 * l10 + R.m12 * l20
  let y01 := R.m10 * l01 + R.m11 * l11 + R.m12 * l21
  let y10 := R.m20 * l00 + R.m21 * l10 + R.m22 * l20
  let y11 := R.m20 * l01 + R.m21 * l11 + R.m22 * l21
  let d1 := y00 * R.m00 + y01 * R.m01
  let d2 := y00 * R.m10 + y01 * R.m11
  let d3 := y10 * R.m00 + y11 * R.m01
  let d4 := y10 * R.m10 + y11 * R.m11
  let d5 := y10 * R.m20 + y11 * R.m21
  let r0 := -R.m00 * s.yz + R.m01 * s.xz
  let r1 := -R.m10 * s.yz + R.m11 * s.xz
  let r2 := -R.m20 * s.yz + R.m21 * s.xz
  let d0 := l00 + l11 - d2 - d5
  ⟨d0 + s.zz, d1 + r2, d2 + s.zz, d3 - r1, d4 + r0, d5 + s.zz⟩
end

/-- `inverse`, `spatial/symmetric3.hpp:163-179`. -/
def inverse [Field K] (s : Sym3 K) : M3 K :=
  let r00 := s.zz * s.yy - s.yz * s.yz
  let r01 := -(s.zz * s.xy - s.yz * s.xz)
  let r02 := s.yz * s.xy - s.yy * s.xz
  let r11 := s.zz * s.xx - s.xz * s.xz
  let r12 := -(s.yz * s.xx - s.xy * s.xz)
  let r22 := s.yy * s.xx - s.xy * s.xy
  let det := s.xx * r00 + s.xy * r01 + s.xz * r02
  ⟨r00 / det, r01 / det, r02 / det, r01 / det, r11 / det, r12 / det, r02 / det, r12 / det, r22 / det⟩
end Sym3

/-! ## Inertia -/

/-- `InertiaTpl`, `spatial/inertia.hpp:260-932`: mass, lever (centre of mass), rotational inertia at the
centre of mass. -/
@[ext] structure Inertia (K : Type*) where
  mass : K
  lever : V3 K
  rotI : Sym3 K
deriving DecidableEq, Repr

namespace Inertia
/-- `Zero()`, `spatial/inertia.hpp:337-340`. -/
instance [Zero K] : Zero (Inertia K) := ⟨⟨0, 0, 0⟩⟩
@[simp] theorem zero_mass [Zero K] : (0 : Inertia K).mass = 0 := rfl
@[simp] theorem zero_lever [Zero K] : (0 : Inertia K).lever = 0 := rfl
@[simp] theorem zero_rotI [Zero K] : (0 : Inertia K).rotI = 0 := rfl

section
variable [CommRing K]

/-- `matrix_impl`, `spatial/inertia.hpp:479-490`. -/
def matrix (I : Inertia K) : M6 K :=
  let al := M3.alphaSkew I.mass I.lever
  ⟨⟨I.mass, 0, 0, 0, I.mass, 0, 0, 0, I.mass⟩, -al, al,
   (I.rotI.subAlphaSkewSquare I.mass I.lever).matrix⟩

/-- `__mult__(v, f)`, `spatial/inertia.hpp:727-734`. -/
def mul (I : Inertia K) (v : Motion K) : Force K :=
  let lin := I.mass • (v.lin - I.lever.cross v.ang)
  ⟨lin, I.rotI.mulVec v.ang + I.lever.cross lin⟩

/-- `vtiv_impl`, `spatial/inertia.hpp:736-746`. -/
def vtiv (I : Inertia K) (v : Motion K) : K :=
  let cxw := I.lever.cross v.ang
  let res := I.mass * (v.lin.sqNorm - 2 * v.lin.dot cxw)
  let mcxcxw := (-I.mass) • I.lever.cross cxw
  let res := res + v.ang.dot mcxcxw
  res + I.rotI.vtiv v.ang

/-- `se3Action_impl`, `spatial/inertia.hpp:871-879`. -/
def act (M : SE3 K) (I : Inertia K) : Inertia K :=
  ⟨I.mass, M.trans + M.rot.mulVec I.lever, I.rotI.rotate M.rot⟩

/-- `se3ActionInverse_impl`, `spatial/inertia.hpp:882-888`. -/
def actInv (M : SE3 K) (I : Inertia K) : Inertia K :=
  ⟨I.mass, M.rot.tr.mulVec (I.lever - M.trans), I.rotI.rotate M.rot.tr⟩

/-- `vxiv`, `spatial/inertia.hpp:890-899`. -/
def vxiv (I : Inertia K) (v : Motion K) : Force K :=
  let mcxw := I.mass • I.lever.cross v.ang
  let mv_mcxw := I.mass • v.lin - mcxw
  ⟨v.ang.cross mv_mcxw,
   v.ang.cross (I.lever.cross mv_mcxw + I.rotI.mulVec v.ang) - v.lin.cross mcxw⟩

/-- `variation`, `spatial/inertia.hpp:748-775`. -/
def variation (I : Inertia K) (v : Motion K) : M6 K :=
  let mv := I.mass • v
  let la := -M3.skew mv.lin - M3.skewSquare mv.ang I.lever + M3.skewSquare I.lever mv.ang
  let al := la.tr
  let aa := -M3.skewSquare mv.lin I.lever - M3.skewSquare I.lever mv.lin
  let tmp := (I.rotI.subAlphaSkewSquare I.mass I.lever).matrix
  let aa := aa - tmp * M3.skew v.ang
  let aa := aa + M3.crossM v.ang tmp
  ⟨0, la, al, aa⟩

/-- `vxi_impl`, `spatial/inertia.hpp:777-809`. -/
def vxi (v : Motion K) (I : Inertia K) : M6 K :=
  let ll := M3.alphaSkew I.mass v.ang
  let mc := I.mass • I.lever
  let la := M3.skewSquare (-v.ang) mc
  let al := M3.alphaSkew I.mass v.lin - la
  let aa := M3.skewSquare (-v.lin) mc
  let aa := aa + Sym3.vxs v.ang I.rotI
  let aa := aa - Sym3.vxs v.ang (Sym3.alphaSkewSquare I.mass I.lever)
  ⟨ll, la, al, aa⟩

/-- `ivx_impl`, `spatial/inertia.hpp:811-841`. -/
def ivx (v : Motion K) (I : Inertia K) : M6 K :=
  let ll := M3.alphaSkew I.mass v.ang
  let mc := I.mass • I.lever
  let al := M3.skewSquare mc v.ang
  let la := M3.alphaSkew I.mass v.lin
  let aa := M3.crossM (-I.lever) al
  let aa := aa + Sym3.svx v.ang I.rotI
  let aa := aa + M3.ofCols (I.lever.cross la.col0) (I.lever.cross la.col1) (I.lever.cross la.col2)
  let la := la - al
  ⟨ll, la, al, aa⟩
end

section field
variable [Field K]
/-- `inverse_impl`, `spatial/inertia.hpp:499-525`. -/
def inverse (I : Inertia K) : M6 K :=
  let aa := I.rotI.inverse
  -- `-aa.colwise().cross(lever())`
  let la := -M3.ofCols (aa.col0.cross I.lever) (aa.col1.cross I.lever) (aa.col2.cross I.lever)
  let al := la.tr
  let c := I.lever
  let ll := M3.ofCols (c.y • la.col2 - c.z • la.col1) (c.z • la.col0 - c.x • la.col2)
    (c.x • la.col1 - c.y • la.col0)
  let mi := 1 / I.mass
  ⟨ll + ⟨mi, 0, 0, 0, mi, 0, 0, 0, mi⟩, la, al, aa⟩

variable [LinearOrder K] [HasEps K]

/-- `__plus__`, `spatial/inertia.hpp:640-656`. -/
def add (a b : Inertia K) : Inertia K :=
  let mab := a.mass + b.mass
  let mabInv := 1 / max mab (HasEps.eps : K)
  let ab := a.lever - b.lever
  ⟨mab, mabInv • (a.mass • a.lever + b.mass • b.lever),
   (a.rotI + b.rotI).subAlphaSkewSquare (a.mass * b.mass * mabInv) ab⟩

instance : Add (Inertia K) := ⟨Inertia.add⟩

/-- `__minus__`, `spatial/inertia.hpp:674-694`. -/
def sub (a b : Inertia K) : Inertia K :=
  let ma := a.mass - b.mass
  let maInv := 1 / max ma (HasEps.eps : K)
  let ca := maInv • (a.mass • a.lever - b.mass • b.lever)
  let ab := ca - b.lever
  ⟨ma, ca, a.rotI - b.rotI + Sym3.alphaSkewSquare (ma * b.mass / a.mass) ab⟩

instance : Sub (Inertia K) := ⟨Inertia.sub⟩

/-- `__pequ__`, `spatial/inertia.hpp:658-672`: the in-place sum, statement by statement. -/
def addAssign (a b : Inertia K) : Inertia K :=
  let mab := a.mass + b.mass
  let mabInv := 1 / max mab (HasEps.eps : K)
  let ab := a.lever - b.lever
  let lever := (a.mass * mabInv) • a.lever
  let lever := lever + (b.mass * mabInv) • b.lever
  let inertia := a.rotI + b.rotI
  let inertia := inertia.subAlphaSkewSquare (a.mass * b.mass * mabInv) ab
  ⟨mab, lever, inertia⟩

/-- `__mequ__`, `spatial/inertia.hpp:696-714`: the in-place difference, statement by statement. -/
def subAssign (a b : Inertia K) : Inertia K :=
  let ma := a.mass - b.mass
  let maInv := 1 / max ma (HasEps.eps : K)
  let lever := (a.mass * maInv) • a.lever
  let lever := lever - (b.mass * maInv) • b.lever
  let ab := lever - b.lever
  let inertia := a.rotI - b.rotI
  let inertia := inertia + Sym3.alphaSkewSquare (ma * b.mass / a.mass) ab
  ⟨ma, lever, inertia⟩
end field
end Inertia
end Pin
