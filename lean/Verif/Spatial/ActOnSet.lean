import Verif.Spatial.InertiaLemmas
import Mathlib.Logic.Function.Basic

/-! # Actions on sets of motions and forces

Model of `spatial/act-on-set.hxx`: the action of a placement, a motion or an inertia on a 6×N matrix
whose columns are motions or forces, written to another 6×N matrix by `=`, `+=` or `-=`.

Input and output are column ranges of one storage (`Mem`), so that calls on disjoint matrices, calls
in place and calls on overlapping blocks are all covered; every write is made in the order of the
code and every read sees the writes made before it. An Eigen `cross` returns a plain vector, so it is
evaluated before the assignment it appears in; `m.act(f)`, `v.cross(f)` and `I * v` return plain
objects. Not modelled: strides other than one column, types, compile-time dispatch on the number of
columns (a matrix of one column takes the column path directly, which is the loop with one turn). -/

namespace Pin
namespace OnSet
variable {K : Type*}

/-- A column of a 6×N matrix: rows LINEAR then rows ANGULAR. -/
@[ext] structure Col6 (K : Type*) where
  lin : V3 K
  ang : V3 K
deriving DecidableEq

/-- A `MotionRef` on a column, `spatial/motion-ref.hpp`. -/
def Col6.mot (c : Col6 K) : Motion K := ⟨c.lin, c.ang⟩
/-- A `ForceRef` on a column, `spatial/force-ref.hpp`. -/
def Col6.frc (c : Col6 K) : Force K := ⟨c.lin, c.ang⟩
/-- The column of a motion. -/
def ofMot (v : Motion K) : Col6 K := ⟨v.lin, v.ang⟩
/-- The column of a force. -/
def ofFrc (f : Force K) : Col6 K := ⟨f.lin, f.ang⟩

/-- The storage: columns by index. -/
abbrev Mem (K : Type*) := ℕ → Col6 K

/-- The assignment operators SETTO, ADDTO, RMTO, `include/pinocchio/fwd.hpp:130-135`. -/
inductive Op
  | setto
  | addto
  | rmto
deriving DecidableEq

/-- Assignment to `x.linear()` of column `o`. -/
def setLin (M : Mem K) (o : ℕ) (x : V3 K) : Mem K := Function.update M o ⟨x, (M o).ang⟩
/-- Assignment to `x.angular()` of column `o`. -/
def setAng (M : Mem K) (o : ℕ) (x : V3 K) : Mem K := Function.update M o ⟨(M o).lin, x⟩

section
variable [CommRing K]

/-- `fout = c`, `fout += c`, `fout -= c` for a plain object `c`: both halves of column `o`,
`spatial/force-dense.hpp:106-150`, `spatial/motion-dense.hpp:130-190`. -/
def assign (op : Op) (M : Mem K) (o : ℕ) (c : Col6 K) : Mem K :=
  match op with
  | .setto => setAng (setLin M o c.lin) o c.ang
  | .addto =>
    let M1 := setLin M o ((M o).lin + c.lin)
    setAng M1 o ((M1 o).ang + c.ang)
  | .rmto =>
    let M1 := setLin M o ((M o).lin - c.lin)
    setAng M1 o ((M1 o).ang - c.ang)

/-- `ForceSetSe3Action<Op,…,1>::run`, `spatial/act-on-set.hxx:27-61`: from column `i` to column `o`. -/
def forceSe3Col (op : Op) (m : SE3 K) (M : Mem K) (i o : ℕ) : Mem K :=
  assign op M o (ofFrc (m.actF (M i).frc))

/-- `ForceSetSe3ActionInverse<Op,…,1>::run`, `spatial/act-on-set.hxx:159-192`. -/
def forceSe3InvCol (op : Op) (m : SE3 K) (M : Mem K) (i o : ℕ) : Mem K :=
  assign op M o (ofFrc (m.actInvF (M i).frc))

/-- `MotionSetSe3Action<Op,…,1>::run`, `spatial/act-on-set.hxx:292-326`. -/
def motionSe3Col (op : Op) (m : SE3 K) (M : Mem K) (i o : ℕ) : Mem K :=
  assign op M o (ofMot (m.act (M i).mot))

/-- `MotionSetSe3ActionInverse<Op,…,1>::run`, `spatial/act-on-set.hxx:417-450`. -/
def motionSe3InvCol (op : Op) (m : SE3 K) (M : Mem K) (i o : ℕ) : Mem K :=
  assign op M o (ofMot (m.actInv (M i).mot))

/-- `ForceDense::motionAction(v, fout)` on references, `spatial/force-dense.hpp:177-182`: the linear
part is written before the angular part is computed. -/
def forceMotionInto (v : Motion K) (M : Mem K) (i o : ℕ) : Mem K :=
  let M1 := setLin M o (v.ang.cross (M i).lin)
  setAng M1 o (v.ang.cross (M1 i).ang + v.lin.cross (M1 i).lin)

/-- `ForceSetMotionAction<Op,…,1>::run`, `spatial/act-on-set.hxx:91-131`. -/
def forceMotionCol (op : Op) (v : Motion K) (M : Mem K) (i o : ℕ) : Mem K :=
  match op with
  | .setto => forceMotionInto v M i o
  | op => assign op M o (ofFrc (v.crossF (M i).frc))

/-- `MotionDense::motionAction(v, mout)` on references, `spatial/motion-dense.hpp:222-227`. -/
def motionMotionInto (v : Motion K) (M : Mem K) (i o : ℕ) : Mem K :=
  let M1 := setLin M o (v.lin.cross (M i).ang + v.ang.cross (M i).lin)
  setAng M1 o (v.ang.cross (M1 i).ang)

/-- `MotionSetMotionAction<Op,…,1>::run`, `spatial/act-on-set.hxx:369-402`. -/
def motionMotionCol (op : Op) (v : Motion K) (M : Mem K) (i o : ℕ) : Mem K :=
  match op with
  | .setto => motionMotionInto v M i o
  | op => assign op M o (ofMot (v.cross (M i).mot))

/-- `Symmetric3::rhsMult(S, v.angular(), f.angular())`, `spatial/symmetric3.hpp:489-503`, on
references: three scalar writes, each reading the input again. -/
def rhsMultInto (s : Sym3 K) (M : Mem K) (i o : ℕ) : Mem K :=
  let M1 := setAng M o
    { (M o).ang with x := s.xx * (M i).ang.x + s.xy * (M i).ang.y + s.xz * (M i).ang.z }
  let M2 := setAng M1 o
    { (M1 o).ang with y := s.xy * (M1 i).ang.x + s.yy * (M1 i).ang.y + s.yz * (M1 i).ang.z }
  setAng M2 o
    { (M2 o).ang with z := s.xz * (M2 i).ang.x + s.yz * (M2 i).ang.y + s.zz * (M2 i).ang.z }

/-- `InertiaTpl::__mult__(v, f)` on references, `spatial/inertia.hpp:727-734`. -/
def inertiaInto (I : Inertia K) (M : Mem K) (i o : ℕ) : Mem K :=
  let M1 := setLin M o (I.mass • ((M i).lin - I.lever.cross (M i).ang))
  let M2 := rhsMultInto I.rotI M1 i o
  setAng M2 o ((M2 o).ang + I.lever.cross (M2 o).lin)

/-- `MotionSetInertiaAction<Op,…,1>::run`, `spatial/act-on-set.hxx:494-526`. -/
def inertiaCol (op : Op) (I : Inertia K) (M : Mem K) (i o : ℕ) : Mem K :=
  match op with
  | .setto => inertiaInto I M i o
  | op => assign op M o (ofFrc (I.mul (M i).mot))

/-- `ForceDense::motionAction(vin, fout)` with the motion a reference on column `i` and the force a
separate object, `spatial/force-dense.hpp:177-182`. -/
def actForceInto (f : Force K) (M : Mem K) (i o : ℕ) : Mem K :=
  let M1 := setLin M o ((M i).ang.cross f.lin)
  setAng M1 o ((M1 i).ang.cross f.ang + (M1 i).lin.cross f.lin)

/-- `MotionSetActOnForce<Op,…,1>::run`, `spatial/act-on-set.hxx:544-566`. -/
def actForceCol (op : Op) (f : Force K) (M : Mem K) (i o : ℕ) : Mem K :=
  match op with
  | .setto => actForceInto f M i o
  | op => assign op M o (ofFrc ((M i).mot.crossF f))

/-- The column loops, `for (col = 0; col < jF.cols(); ++col)`: `spatial/act-on-set.hxx:66-77`,
`:133-144`, `:193-207`, `:327-341`, `:354-366`, `:452-466`, `:479-491`, `:533-543`. The input is the
block of `n` columns from `a`, the output the block of `n` columns from `b`. -/
def cols (step : Mem K → ℕ → ℕ → Mem K) (a b : ℕ) : ℕ → Mem K → Mem K
  | 0, M => M
  | n + 1, M => let M1 := cols step a b n M; step M1 (a + n) (b + n)

/-- `forceSet::se3Action<Op>`, `spatial/act-on-set.hxx:216-223`. -/
def forceSe3 (op : Op) (m : SE3 K) (a b n : ℕ) (M : Mem K) : Mem K := cols (forceSe3Col op m) a b n M
/-- `forceSet::se3ActionInverse<Op>`, `spatial/act-on-set.hxx:236-243`. -/
def forceSe3Inv (op : Op) (m : SE3 K) (a b n : ℕ) (M : Mem K) : Mem K := cols (forceSe3InvCol op m) a b n M
/-- `forceSet::motionAction<Op>`, `spatial/act-on-set.hxx:256-263`. -/
def forceMotion (op : Op) (v : Motion K) (a b n : ℕ) (M : Mem K) : Mem K := cols (forceMotionCol op v) a b n M
/-- `motionSet::se3Action<Op>`, `spatial/act-on-set.hxx:570-577`. -/
def motionSe3 (op : Op) (m : SE3 K) (a b n : ℕ) (M : Mem K) : Mem K := cols (motionSe3Col op m) a b n M
/-- `motionSet::se3ActionInverse<Op>`, `spatial/act-on-set.hxx:590-597`. -/
def motionSe3Inv (op : Op) (m : SE3 K) (a b n : ℕ) (M : Mem K) : Mem K := cols (motionSe3InvCol op m) a b n M
/-- `motionSet::motionAction<Op>`, `spatial/act-on-set.hxx:610-617`. -/
def motionMotion (op : Op) (v : Motion K) (a b n : ℕ) (M : Mem K) : Mem K := cols (motionMotionCol op v) a b n M
/-- `motionSet::inertiaAction<Op>`, `spatial/act-on-set.hxx:630-637`. -/
def inertiaSet (op : Op) (I : Inertia K) (a b n : ℕ) (M : Mem K) : Mem K := cols (inertiaCol op I) a b n M
/-- `motionSet::act<Op>`, `spatial/act-on-set.hxx:650-657`. -/
def actForce (op : Op) (f : Force K) (a b n : ℕ) (M : Mem K) : Mem K := cols (actForceCol op f) a b n M
end
end OnSet
end Pin
