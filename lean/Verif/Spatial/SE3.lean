import Verif.Spatial.Vec

/-!
# Spatial motions, forces and rigid transforms

Models `include/pinocchio/spatial/{motion-dense,force-dense,se3-tpl}.hpp`.
-/

namespace Pin

/-- `MotionTpl`, `spatial/motion-tpl.hpp`; a 6-vector (linear, angular). -/
@[ext] structure Motion (K : Type*) where
  lin : V3 K
  ang : V3 K
deriving DecidableEq, Repr

/-- `ForceTpl`, `spatial/force-tpl.hpp`; a 6-vector (linear, angular). -/
@[ext] structure Force (K : Type*) where
  lin : V3 K
  ang : V3 K
deriving DecidableEq, Repr

/-- `SE3Tpl`, `spatial/se3-tpl.hpp:58-`: rotation matrix and translation. -/
@[ext] structure SE3 (K : Type*) where
  rot : M3 K
  trans : V3 K
deriving DecidableEq, Repr

variable {K : Type*}

namespace Motion
instance [Zero K] : Zero (Motion K) := ⟨⟨0, 0⟩⟩
/-- `__plus__`, `spatial/motion-dense.hpp:170-174`. -/
instance [Add K] : Add (Motion K) := ⟨fun a b => ⟨a.lin + b.lin, a.ang + b.ang⟩⟩
/-- `__opposite__`, `spatial/motion-dense.hpp:165-168`. -/
instance [Neg K] : Neg (Motion K) := ⟨fun a => ⟨-a.lin, -a.ang⟩⟩
/-- `__minus__`, `spatial/motion-dense.hpp:176-180`. -/
instance [Sub K] : Sub (Motion K) := ⟨fun a b => ⟨a.lin - b.lin, a.ang - b.ang⟩⟩
/-- `__mult__`, `spatial/motion-dense.hpp:198-202`. -/
instance [Mul K] : SMul K (Motion K) := ⟨fun k a => ⟨k • a.lin, k • a.ang⟩⟩

@[simp] theorem zero_lin [Zero K] : (0 : Motion K).lin = 0 := rfl
@[simp] theorem zero_ang [Zero K] : (0 : Motion K).ang = 0 := rfl
@[simp] theorem add_lin [Add K] (a b : Motion K) : (a + b).lin = a.lin + b.lin := rfl
@[simp] theorem add_ang [Add K] (a b : Motion K) : (a + b).ang = a.ang + b.ang := rfl
@[simp] theorem neg_lin [Neg K] (a : Motion K) : (-a).lin = -a.lin := rfl
@[simp] theorem neg_ang [Neg K] (a : Motion K) : (-a).ang = -a.ang := rfl
@[simp] theorem sub_lin [Sub K] (a b : Motion K) : (a - b).lin = a.lin - b.lin := rfl
@[simp] theorem sub_ang [Sub K] (a b : Motion K) : (a - b).ang = a.ang - b.ang := rfl
@[simp] theorem smul_lin [Mul K] (k : K) (a : Motion K) : (k • a).lin = k • a.lin := rfl
@[simp] theorem smul_ang [Mul K] (k : K) (a : Motion K) : (k • a).ang = k • a.ang := rfl

instance [AddCommGroup K] : AddCommGroup (Motion K) where
  add_assoc a b c := by ext <;> simp [add_assoc]
  zero_add a := by ext <;> simp
  add_zero a := by ext <;> simp
  add_comm a b := by ext <;> simp [add_comm]
  neg_add_cancel a := by ext <;> simp
  sub_eq_add_neg a b := by ext <;> simp [sub_eq_add_neg]
  nsmul := nsmulRec
  zsmul := zsmulRec

instance [CommRing K] : Module K (Motion K) where
  one_smul a := by ext <;> simp
  mul_smul r s a := by ext <;> simp [mul_assoc]
  smul_zero r := by ext <;> simp
  smul_add r a b := by ext <;> simp [mul_add]
  add_smul r s a := by ext <;> simp [add_mul]
  zero_smul a := by ext <;> simp
end Motion

namespace Force
instance [Zero K] : Zero (Force K) := ⟨⟨0, 0⟩⟩
/-- `__plus__`, `spatial/force-dense.hpp`. -/
instance [Add K] : Add (Force K) := ⟨fun a b => ⟨a.lin + b.lin, a.ang + b.ang⟩⟩
/-- `__opposite__`, `spatial/force-dense.hpp`. -/
instance [Neg K] : Neg (Force K) := ⟨fun a => ⟨-a.lin, -a.ang⟩⟩
/-- `__minus__`, `spatial/force-dense.hpp`. -/
instance [Sub K] : Sub (Force K) := ⟨fun a b => ⟨a.lin - b.lin, a.ang - b.ang⟩⟩
/-- `__mult__`, `spatial/force-dense.hpp`. -/
instance [Mul K] : SMul K (Force K) := ⟨fun k a => ⟨k • a.lin, k • a.ang⟩⟩

@[simp] theorem zero_lin [Zero K] : (0 : Force K).lin = 0 := rfl
@[simp] theorem zero_ang [Zero K] : (0 : Force K).ang = 0 := rfl
@[simp] theorem add_lin [Add K] (a b : Force K) : (a + b).lin = a.lin + b.lin := rfl
@[simp] theorem add_ang [Add K] (a b : Force K) : (a + b).ang = a.ang + b.ang := rfl
@[simp] theorem neg_lin [Neg K] (a : Force K) : (-a).lin = -a.lin := rfl
@[simp] theorem neg_ang [Neg K] (a : Force K) : (-a).ang = -a.ang := rfl
@[simp] theorem sub_lin [Sub K] (a b : Force K) : (a - b).lin = a.lin - b.lin := rfl
@[simp] theorem sub_ang [Sub K] (a b : Force K) : (a - b).ang = a.ang - b.ang := rfl
@[simp] theorem smul_lin [Mul K] (k : K) (a : Force K) : (k • a).lin = k • a.lin := rfl
@[simp] theorem smul_ang [Mul K] (k : K) (a : Force K) : (k • a).ang = k • a.ang := rfl

instance [AddCommGroup K] : AddCommGroup (Force K) where
  add_assoc a b c := by ext <;> simp [add_assoc]
  zero_add a := by ext <;> simp
  add_zero a := by ext <;> simp
  add_comm a b := by ext <;> simp [add_comm]
  neg_add_cancel a := by ext <;> simp
  sub_eq_add_neg a b := by ext <;> simp [sub_eq_add_neg]
  nsmul := nsmulRec
  zsmul := zsmulRec

instance [CommRing K] : Module K (Force K) where
  one_smul a := by ext <;> simp
  mul_smul r s a := by ext <;> simp [mul_assoc]
  smul_zero r := by ext <;> simp
  smul_add r a b := by ext <;> simp [mul_add]
  add_smul r s a := by ext <;> simp [add_mul]
  zero_smul a := by ext <;> simp
end Force

section ops
variable [CommRing K]

/-- `MotionDense::dot(ForceBase)`, `spatial/motion-dense.hpp:210-214`: the power of `f` along `v`. -/
def Motion.dot (v : Motion K) (f : Force K) : K := f.lin.dot v.lin + f.ang.dot v.ang

/-- `v.cross(w)` on motions, `spatial/motion-dense.hpp:216-227` (`w.motionAction(v)`). -/
def Motion.cross (v w : Motion K) : Motion K :=
  ⟨v.lin.cross w.ang + v.ang.cross w.lin, v.ang.cross w.ang⟩

/-- `v.cross(f)` of a motion on a force, `spatial/force-dense.hpp:177-182`. -/
def Motion.crossF (v : Motion K) (f : Force K) : Force K :=
  ⟨v.ang.cross f.lin, v.ang.cross f.ang + v.lin.cross f.lin⟩

namespace SE3

/-- `SE3Tpl::Identity`, `spatial/se3-tpl.hpp` (`SE3Tpl(int)`). -/
instance : One (SE3 K) := ⟨⟨1, 0⟩⟩

/-- `inverse`, `spatial/se3-tpl.hpp`: `SE3Tpl(rot.transpose(), -rot.transpose()*trans)`. -/
def inv (M : SE3 K) : SE3 K := ⟨M.rot.tr, -(M.rot.tr.mulVec M.trans)⟩

/-- `act_impl(SE3)`/`__mult__`, `spatial/se3-tpl.hpp`. -/
instance : Mul (SE3 K) := ⟨fun A B => ⟨A.rot * B.rot, A.trans + A.rot.mulVec B.trans⟩⟩

/-- `actInv_impl(SE3)`, `spatial/se3-tpl.hpp`. -/
def actInvSE3 (A B : SE3 K) : SE3 K := ⟨A.rot.tr * B.rot, A.rot.tr.mulVec (B.trans - A.trans)⟩

/-- `act_impl(Vector3)`. -/
def actP (M : SE3 K) (p : V3 K) : V3 K := M.rot.mulVec p + M.trans

/-- `actInv_impl(Vector3)`. -/
def actInvP (M : SE3 K) (p : V3 K) : V3 K := M.rot.tr.mulVec (p - M.trans)

/-- `Motion::se3Action_impl`, `spatial/motion-dense.hpp:258-263`. -/
def act (M : SE3 K) (v : Motion K) : Motion K :=
  let ang := M.rot.mulVec v.ang
  ⟨M.rot.mulVec v.lin + M.trans.cross ang, ang⟩

/-- `Motion::se3ActionInverse_impl`, `spatial/motion-dense.hpp:273-279`. -/
def actInv (M : SE3 K) (v : Motion K) : Motion K :=
  ⟨M.rot.tr.mulVec (v.lin - M.trans.cross v.ang), M.rot.tr.mulVec v.ang⟩

/-- `Force::se3Action_impl`, `spatial/force-dense.hpp:213-219`. -/
def actF (M : SE3 K) (f : Force K) : Force K :=
  let lin := M.rot.mulVec f.lin
  ⟨lin, M.rot.mulVec f.ang + M.trans.cross lin⟩

/-- `Force::se3ActionInverse_impl`, `spatial/force-dense.hpp:229-235`. -/
def actInvF (M : SE3 K) (f : Force K) : Force K :=
  ⟨M.rot.tr.mulVec f.lin, M.rot.tr.mulVec (f.ang - M.trans.cross f.lin)⟩

/-- The rotation part is a rotation matrix (what `isNormalized` plus a positive determinant mean). -/
def Valid (M : SE3 K) : Prop := M.rot.IsRot

@[simp] theorem one_rot : (1 : SE3 K).rot = 1 := rfl
@[simp] theorem one_trans : (1 : SE3 K).trans = 0 := rfl
@[simp] theorem mul_rot (A B : SE3 K) : (A * B).rot = A.rot * B.rot := rfl
@[simp] theorem mul_trans (A B : SE3 K) : (A * B).trans = A.trans + A.rot.mulVec B.trans := rfl

theorem valid_one : (1 : SE3 K).Valid := M3.IsRot.one
theorem Valid.mul {A B : SE3 K} (hA : A.Valid) (hB : B.Valid) : (A * B).Valid := M3.IsRot.mul hA hB
theorem Valid.inv {A : SE3 K} (hA : A.Valid) : A.inv.Valid := M3.IsRot.tr hA

protected theorem mul_assoc (A B C : SE3 K) : A * B * C = A * (B * C) := by
  ext1
  · exact M3.mul_assoc' _ _ _
  · simp [M3.mulVec_mulVec, M3.mulVec_add, add_assoc]
protected theorem one_mul (A : SE3 K) : 1 * A = A := by
  ext1
  · exact M3.one_mul' _
  · simp
protected theorem mul_one (A : SE3 K) : A * 1 = A := by
  ext1
  · exact M3.mul_one' _
  · simp
theorem mul_inv {A : SE3 K} (h : A.Valid) : A * A.inv = 1 := by
  ext1
  · exact h.mul_tr
  · simp [SE3.inv, M3.mulVec_neg, M3.IsRot.mulVec_tr_mulVec h]
theorem inv_mul {A : SE3 K} (h : A.Valid) : A.inv * A = 1 := by
  ext1
  · exact h.tr_mul
  · simp [SE3.inv]
theorem inv_inv {A : SE3 K} (h : A.Valid) : A.inv.inv = A := by
  ext1
  · rfl
  · simp [SE3.inv, M3.mulVec_neg, M3.IsRot.mulVec_tr_mulVec h]

/-! ### linearity -/
theorem act_add (M : SE3 K) (v w : Motion K) : M.act (v + w) = M.act v + M.act w := by
  ext <;> simp [act] <;> ring
theorem act_sub (M : SE3 K) (v w : Motion K) : M.act (v - w) = M.act v - M.act w := by
  ext <;> simp [act] <;> ring
theorem act_smul (M : SE3 K) (k : K) (v : Motion K) : M.act (k • v) = k • M.act v := by
  ext <;> simp [act] <;> ring
@[simp] theorem act_zero (M : SE3 K) : M.act 0 = 0 := by ext <;> simp [act]
theorem act_neg (M : SE3 K) (v : Motion K) : M.act (-v) = -M.act v := by
  ext <;> simp [act] <;> ring
theorem actInv_add (M : SE3 K) (v w : Motion K) : M.actInv (v + w) = M.actInv v + M.actInv w := by
  ext <;> simp [actInv] <;> ring
theorem actInv_sub (M : SE3 K) (v w : Motion K) : M.actInv (v - w) = M.actInv v - M.actInv w := by
  ext <;> simp [actInv] <;> ring
theorem actInv_smul (M : SE3 K) (k : K) (v : Motion K) : M.actInv (k • v) = k • M.actInv v := by
  ext <;> simp [actInv] <;> ring
@[simp] theorem actInv_zero (M : SE3 K) : M.actInv 0 = 0 := by ext <;> simp [actInv]
theorem actInv_neg (M : SE3 K) (v : Motion K) : M.actInv (-v) = -M.actInv v := by
  ext <;> simp [actInv] <;> ring
theorem actF_add (M : SE3 K) (v w : Force K) : M.actF (v + w) = M.actF v + M.actF w := by
  ext <;> simp [actF] <;> ring
theorem actF_sub (M : SE3 K) (v w : Force K) : M.actF (v - w) = M.actF v - M.actF w := by
  ext <;> simp [actF] <;> ring
theorem actF_smul (M : SE3 K) (k : K) (v : Force K) : M.actF (k • v) = k • M.actF v := by
  ext <;> simp [actF] <;> ring
@[simp] theorem actF_zero (M : SE3 K) : M.actF 0 = 0 := by ext <;> simp [actF]
theorem actInvF_add (M : SE3 K) (v w : Force K) : M.actInvF (v + w) = M.actInvF v + M.actInvF w := by
  ext <;> simp [actInvF] <;> ring
theorem actInvF_sub (M : SE3 K) (v w : Force K) : M.actInvF (v - w) = M.actInvF v - M.actInvF w := by
  ext <;> simp [actInvF] <;> ring
theorem actInvF_smul (M : SE3 K) (k : K) (v : Force K) : M.actInvF (k • v) = k • M.actInvF v := by
  ext <;> simp [actInvF] <;> ring
@[simp] theorem actInvF_zero (M : SE3 K) : M.actInvF 0 = 0 := by ext <;> simp [actInvF]

/-! ### action laws -/
@[simp] theorem one_act (v : Motion K) : (1 : SE3 K).act v = v := by ext <;> simp [act]
@[simp] theorem one_actInv (v : Motion K) : (1 : SE3 K).actInv v = v := by ext <;> simp [actInv]
@[simp] theorem one_actF (v : Force K) : (1 : SE3 K).actF v = v := by ext <;> simp [actF]
@[simp] theorem one_actInvF (v : Force K) : (1 : SE3 K).actInvF v = v := by
  ext <;> simp [actInvF]

theorem act_actInv {M : SE3 K} (h : M.Valid) (v : Motion K) : M.act (M.actInv v) = v := by
  have h1 := M3.IsRot.mulVec_tr_mulVec h
  ext1
  · simp only [act, actInv, h1]; abel
  · simp only [act, actInv, h1]

theorem actInv_act {M : SE3 K} (h : M.Valid) (v : Motion K) : M.actInv (M.act v) = v := by
  have h1 := M3.IsRot.tr_mulVec_mulVec h
  ext1
  · simp only [act, actInv, add_sub_cancel_right, h1]
  · simp only [act, actInv, h1]

theorem actF_actInvF {M : SE3 K} (h : M.Valid) (f : Force K) : M.actF (M.actInvF f) = f := by
  have h1 := M3.IsRot.mulVec_tr_mulVec h
  ext1
  · simp only [actF, actInvF, h1]
  · simp only [actF, actInvF, h1]; abel

theorem actInvF_actF {M : SE3 K} (h : M.Valid) (f : Force K) : M.actInvF (M.actF f) = f := by
  have h1 := M3.IsRot.tr_mulVec_mulVec h
  ext1
  · simp only [actF, actInvF, h1]
  · simp only [actF, actInvF, add_sub_cancel_right, h1]

theorem mul_act {A : SE3 K} (hA : A.Valid) (B : SE3 K) (v : Motion K) :
    (A * B).act v = A.act (B.act v) := by
  ext1
  · simp only [act, mul_rot, mul_trans, M3.mulVec_mulVec, M3.mulVec_add, M3.IsRot.mulVec_cross hA]
    ext <;> simp <;> ring
  · simp only [act, mul_rot, M3.mulVec_mulVec]

theorem mul_actF {A : SE3 K} (hA : A.Valid) (B : SE3 K) (f : Force K) :
    (A * B).actF f = A.actF (B.actF f) := by
  ext1
  · simp only [actF, mul_rot, M3.mulVec_mulVec]
  · simp only [actF, mul_rot, mul_trans, M3.mulVec_mulVec, M3.mulVec_add, M3.IsRot.mulVec_cross hA]
    ext <;> simp <;> ring

theorem mul_actInv {A B : SE3 K} (hA : A.Valid) (hB : B.Valid) (v : Motion K) :
    (A * B).actInv v = B.actInv (A.actInv v) := by
  have h := mul_act hA B (B.actInv (A.actInv v))
  rw [act_actInv hB, act_actInv hA] at h
  rw [← h, actInv_act (hA.mul hB), h]

theorem mul_actInvF {A B : SE3 K} (hA : A.Valid) (hB : B.Valid) (v : Force K) :
    (A * B).actInvF v = B.actInvF (A.actInvF v) := by
  have h := mul_actF hA B (B.actInvF (A.actInvF v))
  rw [actF_actInvF hB, actF_actInvF hA] at h
  rw [← h, actInvF_actF (hA.mul hB), h]

theorem inv_act {M : SE3 K} (h : M.Valid) (v : Motion K) : M.inv.act v = M.actInv v := by
  calc M.inv.act v = M.inv.act (M.act (M.actInv v)) := by rw [act_actInv h]
    _ = (M.inv * M).act (M.actInv v) := by rw [mul_act h.inv]
    _ = M.actInv v := by rw [inv_mul h, one_act]

theorem inv_actF {M : SE3 K} (h : M.Valid) (v : Force K) : M.inv.actF v = M.actInvF v := by
  calc M.inv.actF v = M.inv.actF (M.actF (M.actInvF v)) := by rw [actF_actInvF h]
    _ = (M.inv * M).actF (M.actInvF v) := by rw [mul_actF h.inv]
    _ = M.actInvF v := by rw [inv_mul h, one_actF]

/-! ### duality -/
theorem dot_act_actF {M : SE3 K} (h : M.Valid) (v : Motion K) (f : Force K) :
    (M.act v).dot (M.actF f) = v.dot f := by
  have e1 := M3.IsRot.dot_mulVec h f.lin v.lin
  have e2 := M3.IsRot.dot_mulVec h f.ang v.ang
  simp only [Motion.dot, act, actF, V3.dot_add, V3.add_dot, e1, e2]
  have : V3.dot (M.rot.mulVec f.lin) (M.trans.cross (M.rot.mulVec v.ang))
      + V3.dot (M.trans.cross (M.rot.mulVec f.lin)) (M.rot.mulVec v.ang) = 0 := by
    simp only [V3.dot, V3.cross]; ring
  linear_combination this

/-- the transpose of `actInv` on motions is `act` on forces (no rotation hypothesis needed) -/
theorem dot_actInv (M : SE3 K) (v : Motion K) (f : Force K) :
    (M.actInv v).dot f = v.dot (M.actF f) := by
  simp only [Motion.dot, actInv, actF, V3.dot, M3.mulVec, M3.tr, V3.cross, V3.sub_x, V3.sub_y,
    V3.sub_z, V3.add_x, V3.add_y, V3.add_z]
  ring

theorem dot_act (M : SE3 K) (v : Motion K) (f : Force K) :
    (M.act v).dot f = v.dot (M.actInvF f) := by
  simp only [Motion.dot, act, actInvF, V3.dot, M3.mulVec, M3.tr, V3.cross, V3.sub_x, V3.sub_y,
    V3.sub_z, V3.add_x, V3.add_y, V3.add_z]
  ring

end SE3

namespace Motion
theorem dot_add (v : Motion K) (f g : Force K) : v.dot (f + g) = v.dot f + v.dot g := by
  simp only [dot, Force.add_lin, Force.add_ang, V3.add_dot]; ring
theorem add_dot (v w : Motion K) (f : Force K) : (v + w).dot f = v.dot f + w.dot f := by
  simp only [dot, add_lin, add_ang, V3.dot_add]; ring
theorem smul_dot (k : K) (v : Motion K) (f : Force K) : (k • v).dot f = k * v.dot f := by
  simp only [dot, smul_lin, smul_ang, V3.dot_smul]; ring
theorem dot_smul (k : K) (v : Motion K) (f : Force K) : v.dot (k • f) = k * v.dot f := by
  simp only [dot, Force.smul_lin, Force.smul_ang, V3.smul_dot]; ring
@[simp] theorem dot_zero (v : Motion K) : v.dot 0 = 0 := by simp [dot, V3.dot]
@[simp] theorem zero_dot (f : Force K) : (0 : Motion K).dot f = 0 := by simp [dot, V3.dot]
theorem dot_neg (v : Motion K) (f : Force K) : v.dot (-f) = -v.dot f := by
  simp [dot, V3.dot]; ring
theorem neg_dot (v : Motion K) (f : Force K) : (-v).dot f = -v.dot f := by
  simp [dot, V3.dot]; ring
theorem dot_sub (v : Motion K) (f g : Force K) : v.dot (f - g) = v.dot f - v.dot g := by
  simp [dot, V3.dot]; ring
theorem sub_dot (v w : Motion K) (f : Force K) : (v - w).dot f = v.dot f - w.dot f := by
  simp [dot, V3.dot]; ring

theorem cross_add (v w u : Motion K) : v.cross (w + u) = v.cross w + v.cross u := by
  ext <;> simp [cross] <;> ring
theorem add_cross (v w u : Motion K) : (v + w).cross u = v.cross u + w.cross u := by
  ext <;> simp [cross] <;> ring
theorem cross_smul (k : K) (v w : Motion K) : v.cross (k • w) = k • v.cross w := by
  ext <;> simp [cross] <;> ring
theorem smul_cross (k : K) (v w : Motion K) : (k • v).cross w = k • v.cross w := by
  ext <;> simp [cross] <;> ring
@[simp] theorem cross_zero (v : Motion K) : v.cross 0 = 0 := by ext <;> simp [cross]
@[simp] theorem zero_cross (v : Motion K) : (0 : Motion K).cross v = 0 := by ext <;> simp [cross]
@[simp] theorem cross_self (v : Motion K) : v.cross v = 0 := by ext <;> simp [cross] <;> ring
theorem cross_anticomm (v w : Motion K) : v.cross w = -w.cross v := by
  ext <;> simp [cross] <;> ring
theorem jacobi (u v w : Motion K) :
    u.cross (v.cross w) + v.cross (w.cross u) + w.cross (u.cross v) = 0 := by
  ext <;> simp [cross] <;> ring
theorem crossF_add (v : Motion K) (f g : Force K) : v.crossF (f + g) = v.crossF f + v.crossF g := by
  ext <;> simp [crossF] <;> ring
theorem add_crossF (v w : Motion K) (f : Force K) : (v + w).crossF f = v.crossF f + w.crossF f := by
  ext <;> simp [crossF] <;> ring
theorem crossF_smul (k : K) (v : Motion K) (f : Force K) : v.crossF (k • f) = k • v.crossF f := by
  ext <;> simp [crossF] <;> ring
theorem smul_crossF (k : K) (v : Motion K) (f : Force K) : (k • v).crossF f = k • v.crossF f := by
  ext <;> simp [crossF] <;> ring
@[simp] theorem crossF_zero (v : Motion K) : v.crossF 0 = 0 := by ext <;> simp [crossF]
@[simp] theorem zero_crossF (f : Force K) : (0 : Motion K).crossF f = 0 := by ext <;> simp [crossF]
theorem dot_crossF (v w : Motion K) (f : Force K) : (v.cross w).dot f = -(w.dot (v.crossF f)) := by
  simp [cross, crossF, dot, V3.dot]; ring
theorem act_cross {M : SE3 K} (h : M.Valid) (v w : Motion K) :
    M.act (v.cross w) = (M.act v).cross (M.act w) := by
  ext1
  · simp only [cross, SE3.act, M3.mulVec_add, M3.IsRot.mulVec_cross h]
    ext <;> simp <;> ring
  · simp only [cross, SE3.act, M3.IsRot.mulVec_cross h]
theorem act_crossF {M : SE3 K} (h : M.Valid) (v : Motion K) (f : Force K) :
    M.actF (v.crossF f) = (M.act v).crossF (M.actF f) := by
  ext1
  · simp only [crossF, SE3.act, SE3.actF, M3.IsRot.mulVec_cross h]
  · simp only [crossF, SE3.act, SE3.actF, M3.mulVec_add, M3.IsRot.mulVec_cross h]
    ext <;> simp <;> ring
theorem actInv_cross {M : SE3 K} (h : M.Valid) (v w : Motion K) :
    M.actInv (v.cross w) = (M.actInv v).cross (M.actInv w) := by
  have := act_cross h (M.actInv v) (M.actInv w)
  rw [SE3.act_actInv h, SE3.act_actInv h] at this
  rw [← this, SE3.actInv_act h]
end Motion
end ops
end Pin
