import Verif.Algo.Jacobian
import Verif.Algo.Cholesky

/-!
# `algorithm/contact-info.hpp` and `algorithm/contact-jacobian.hxx`: rigid constraint models and their Jacobians

Models without mimic joints. `CONTACT_UNDEFINED` has size 0 and is rejected by the algorithms
(`contact-cholesky.hxx:40-41`), it is not modelled. The jointwise and loop span indexes, which are read by the
derivatives only, and the depths are not modelled.
-/

namespace Pin
variable {K : Type*}

/-- entry `r` of a motion vector, linear part first (`toVector()[r]`) -/
def Motion.row (m : Motion K) : ℕ → K
  | 0 => m.lin.x | 1 => m.lin.y | 2 => m.lin.z | 3 => m.ang.x | 4 => m.ang.y | _ => m.ang.z

/-- `ContactType`, `algorithm/contact-info.hpp:17-23` -/
inductive CType
  | CONTACT_3D
  | CONTACT_6D
deriving DecidableEq

/-- `contact_dim` and `RigidConstraintModel::size`, `algorithm/contact-info.hpp:26-52`, `671-683` -/
def CType.dim : CType → ℕ
  | .CONTACT_3D => 3
  | .CONTACT_6D => 6

/-- the reference frames that the constructors of a constraint accept, `algorithm/contact-info.hpp:716-718` -/
inductive CFrame
  | LOCAL
  | LOCAL_WORLD_ALIGNED
deriving DecidableEq

/-- The fields of `RigidConstraintModelTpl`, `algorithm/contact-info.hpp:155-222`: type, joints, placements, frame,
`colwise_joint1_sparsity`, `colwise_joint2_sparsity` and `colwise_span_indexes`. -/
structure RCM (K : Type*) where
  type : CType
  j1 : ℕ
  j2 : ℕ
  P1 : SE3 K
  P2 : SE3 K
  rf : CFrame
  sp1 : ℕ → Bool
  sp2 : ℕ → Bool
  span : List ℕ

/-- `sparsity[idx_v + k] = true` for the columns of joint `i`, `algorithm/contact-info.hpp:746-750` -/
def markCols (s : Sys K) (i : ℕ) (sp : ℕ → Bool) : ℕ → Bool :=
  upTo (fun k sp => upd sp (s.iv i + k) true) (s.jnv i) sp

/-- `while (current1_id != current2_id) …`, `algorithm/contact-info.hpp:731-765`; `fuel` bounds the number of turns,
which is harmless as parents come first (`spanLoop_spec`). Returns `current1_id` and the two sparsity vectors. -/
def spanLoop (s : Sys K) : ℕ → ℕ → ℕ → (ℕ → Bool) → (ℕ → Bool) → ℕ × (ℕ → Bool) × (ℕ → Bool)
  | 0, c1, _, sp1, sp2 => (c1, sp1, sp2)
  | f + 1, c1, c2, sp1, sp2 =>
    if c1 = c2 then (c1, sp1, sp2)
    else if c1 > c2 then spanLoop s f (s.par c1) c2 (markCols s c1 sp1) sp2
    else spanLoop s f c1 (s.par c2) sp1 (markCols s c2 sp2)

/-- `RigidConstraintModel::init`, `algorithm/contact-info.hpp:714-806`, called by the four constructors; those that
take no placement use the identity and those that take no second joint use the universe
(`algorithm/contact-info.hpp:246-383`). -/
def RCM.make (s : Sys K) (type : CType) (j1 : ℕ) (P1 : SE3 K) (j2 : ℕ) (P2 : SE3 K) : RF → Option (RCM K)
  | .WORLD => none
  | .LOCAL => some (go .LOCAL)
  | .LOCAL_WORLD_ALIGNED => some (go .LOCAL_WORLD_ALIGNED)
where
  go (rf : CFrame) : RCM K :=
    let x := spanLoop s (j1 + j2) j1 j2 (fun _ => false) (fun _ => false)
    let sp :=
      if type = .CONTACT_3D then
        upLoop s.par (fun i (y : (ℕ → Bool) × (ℕ → Bool)) => (markCols s i y.1, markCols s i y.2)) s.n x.1 x.2
      else x.2
    ⟨type, j1, j2, P1, P2, rf, sp.1, sp.2,
      upTo (fun c l => if sp.1 c || sp.2 c then l ++ [c] else l) s.nv []⟩

/-- The placements of `RigidConstraintDataTpl`, `algorithm/contact-info.hpp:854-860` -/
structure RCD (K : Type*) where
  oMc1 : SE3 K
  oMc2 : SE3 K
  c1Mc2 : SE3 K

variable [CommRing K]

/-- `RigidConstraintModel::calc`, `algorithm/contact-info.hpp:425-445` -/
def RCM.calc (m : RCM K) (d : Data K) : RCD K :=
  let oMc1 := if m.j1 > 0 then d.oMi m.j1 * m.P1 else m.P1
  let oMc2 := if m.j2 > 0 then d.oMi m.j2 * m.P2 else m.P2
  ⟨oMc1, oMc2, oMc1.actInvSE3 oMc2⟩

/-- `sign`, `algorithm/contact-info.hpp:571-573` -/
def cSign (b1 b2 : Bool) : ℤ := if b1 != b2 then (if b1 then 1 else -1) else 0

/-- The column that `RigidConstraintModel::jacobian` writes, `algorithm/contact-info.hpp:571-667`; `J` is the column
of `data.J`. The angular part is not used for a `CONTACT_3D`. -/
def RCM.jacCol (m : RCM K) (c : RCD K) (sign : ℤ) (J : Motion K) : Motion K :=
  match m.type, m.rf with
  | .CONTACT_3D, .LOCAL =>
    if sign = 0 then ⟨(c.oMc1.actInv J).lin - c.c1Mc2.rot.mulVec (c.oMc2.actInv J).lin, 0⟩
    else if sign = 1 then ⟨(c.oMc1.actInv J).lin, 0⟩
    else ⟨-(c.c1Mc2.rot.mulVec (c.oMc2.actInv J).lin), 0⟩
  | .CONTACT_3D, .LOCAL_WORLD_ALIGNED =>
    if sign = 0 then ⟨(c.oMc2.trans - c.oMc1.trans).cross J.ang, 0⟩
    else if sign = 1 then ⟨(sign : K) • (J.lin - c.oMc1.trans.cross J.ang), 0⟩
    else ⟨(sign : K) • (J.lin - c.oMc2.trans.cross J.ang), 0⟩
  | .CONTACT_6D, .LOCAL => (sign : K) • c.oMc1.actInv J
  | .CONTACT_6D, .LOCAL_WORLD_ALIGNED => (sign : K) • ⟨J.lin - c.oMc1.trans.cross J.ang, J.ang⟩

/-- `X.col(c) = col`, for a matrix with `n` rows -/
def putCol (X : ℕ → ℕ → K) (n c : ℕ) (col : Motion K) : ℕ → ℕ → K :=
  fun r k => if k = c ∧ r < n then col.row r else X r k

/-- `RigidConstraintModel::jacobian`, `algorithm/contact-info.hpp:550-669`: fills the columns of the span of `X` -/
def RCM.jacobian (s : Sys K) (m : RCM K) (d : Data K) (c : RCD K) (X : ℕ → ℕ → K) : ℕ → ℕ → K :=
  upTo (fun jj X =>
    if m.sp1 jj || m.sp2 jj then putCol X m.type.dim jj (m.jacCol c (cSign (m.sp1 jj) (m.sp2 jj)) (d.J jj))
    else X) s.nv X

/-- `getA1(cdata) * J`, `algorithm/contact-info.hpp:447-469`: the columns are `Rᵀ` and `Rᵀ (e_k × p)` -/
def RCD.A1 (c : RCD K) (J : Motion K) : V3 K :=
  c.oMc1.rot.tr.mulVec J.lin + (J.ang.x • c.oMc1.rot.tr.mulVec ((⟨1, 0, 0⟩ : V3 K).cross c.oMc1.trans)
    + J.ang.y • c.oMc1.rot.tr.mulVec ((⟨0, 1, 0⟩ : V3 K).cross c.oMc1.trans)
    + J.ang.z • c.oMc1.rot.tr.mulVec ((⟨0, 0, 1⟩ : V3 K).cross c.oMc1.trans))

/-- `getA2(cdata) * J`, `algorithm/contact-info.hpp:471-496` -/
def RCD.A2 (c : RCD K) (J : Motion K) : V3 K :=
  -(c.oMc1.rot.tr.mulVec J.lin) + (J.ang.x • c.oMc1.rot.tr.mulVec ((⟨1, 0, 0⟩ : V3 K).cross (-c.oMc2.trans))
    + J.ang.y • c.oMc1.rot.tr.mulVec ((⟨0, 1, 0⟩ : V3 K).cross (-c.oMc2.trans))
    + J.ang.z • c.oMc1.rot.tr.mulVec ((⟨0, 0, 1⟩ : V3 K).cross (-c.oMc2.trans)))

/-- `RigidConstraintModel::jacobian_matrix_product`, `algorithm/contact-info.hpp:498-546`, for a constraint of size 3
(the products are between 3-vectors whatever the type). -/
def RCM.jacobianProduct (s : Sys K) (m : RCM K) (d : Data K) (c : RCD K) (A : ℕ → ℕ → K) : ℕ → ℕ → K :=
  upTo (fun jj X =>
    if !(m.sp1 jj || m.sp2 jj) then X
    else
      let v : V3 K := if m.sp1 jj && m.sp2 jj then c.A1 (d.J jj) + c.A2 (d.J jj)
        else if m.sp1 jj then c.A1 (d.J jj) else c.A2 (d.J jj)
      fun r k => X r k + (⟨v, 0⟩ : Motion K).row r * A jj k) s.nv (fun _ _ => 0)

/-- the column that `getConstraintJacobian` writes, `algorithm/contact-jacobian.hxx:57-145` -/
def RCM.getCol (m : RCM K) (c : RCD K) (sign : ℤ) (J : Motion K) : Motion K :=
  match m.type, m.rf with
  | .CONTACT_3D, .LOCAL =>
    if sign = 0 then ⟨(c.oMc1.actInv J).lin - c.c1Mc2.rot.mulVec (c.oMc2.actInv J).lin, 0⟩
    else if sign = 1 then ⟨(c.oMc1.actInv J).lin, 0⟩
    else ⟨-(c.c1Mc2.rot.mulVec (c.oMc2.actInv J).lin), 0⟩
  | .CONTACT_3D, .LOCAL_WORLD_ALIGNED =>
    if sign = 0 then ⟨(c.oMc2.trans - c.oMc1.trans).cross J.ang, 0⟩
    else if sign = 1 then ⟨J.lin - c.oMc1.trans.cross J.ang, 0⟩
    else ⟨-J.lin + c.oMc2.trans.cross J.ang, 0⟩
  | .CONTACT_6D, .LOCAL => (sign : K) • c.oMc1.actInv J
  | .CONTACT_6D, .LOCAL_WORLD_ALIGNED => (sign : K) • ⟨J.lin - c.oMc1.trans.cross J.ang, J.ang⟩

/-- `getConstraintJacobian`, `algorithm/contact-jacobian.hxx:15-147`. It recomputes the placements of the constraint
(from `data.oMi[0]` if a joint is the universe) and returns them too. -/
def getConstraintJacobian (m : RCM K) (d : Data K) (X : ℕ → ℕ → K) : (ℕ → ℕ → K) × RCD K :=
  let oMc1 := d.oMi m.j1 * m.P1
  let oMc2 := d.oMi m.j2 * m.P2
  let c : RCD K := ⟨oMc1, oMc2, oMc1.actInvSE3 oMc2⟩
  (m.span.foldl (fun X jj => putCol X m.type.dim jj (m.getCol c (cSign (m.sp1 jj) (m.sp2 jj)) (d.J jj))) X, c)

/-- rows `[i, i + n)` of `X` are replaced by `Y` (`X.middleRows(i, n)`) -/
def putRows (X : ℕ → ℕ → K) (i n : ℕ) (Y : ℕ → ℕ → K) : ℕ → ℕ → K :=
  fun r c => if i ≤ r ∧ r < i + n then Y (r - i) c else X r c

/-- `getTotalConstraintSize`, `algorithm/contact-info.hpp:809-820` -/
def totalSize (ms : List (RCM K)) : ℕ := ms.foldl (fun n m => n + m.type.dim) 0

/-- `getConstraintsJacobian`, `algorithm/contact-jacobian.hxx:150-183` -/
def getConstraintsJacobian (ms : List (RCM K)) (d : Data K) (X : ℕ → ℕ → K) : ℕ → ℕ → K :=
  (ms.foldl (fun (x : (ℕ → ℕ → K) × ℕ) m =>
    (putRows x.1 x.2 m.type.dim (getConstraintJacobian m d (fun r c => x.1 (x.2 + r) c)).1, x.2 + m.type.dim)) (X, 0)).1

end Pin
