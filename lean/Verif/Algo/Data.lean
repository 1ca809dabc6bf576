import Verif.Spatial.InertiaLemmas
import Verif.Tree.Basic

/-!
# What the multibody algorithms read and write

* `Joint`: the interface of a joint type (`joint/joint-model-base.hpp`, `joint/joint-data-base.hpp`);
* `Sys`: the part of `ModelTpl` read by the algorithms, tables as functions of the joint index;
* `Data`: the part of `DataTpl` (`multibody/data.hpp`) written by the algorithms.

Vectors and matrices of `Data` are functions of their indices, so that "some previous content" is any
value of `Data` whatsoever. Sizes are not checked here (`PINOCCHIO_CHECK_ARGUMENT_SIZE` is a
precondition); entries beyond the size are never looked at by the property theorems.
-/

namespace Pin
open Finset
variable {K : Type*}

/-- `x.segment(i, ·)`: the entries from `i` on. -/
def seg (x : ℕ → K) (i : ℕ) : ℕ → K := fun k => x (i + k)

/-- `x.segment(i, n) += y` -/
def addSeg [Add K] (x : ℕ → K) (i n : ℕ) (y : ℕ → K) : ℕ → K :=
  fun r => if i ≤ r ∧ r < i + n then x r + y (r - i) else x r

/-- `x.segment(i, n) = y`, and `X.middleCols(i, n) = Y` -/
def putSeg {α : Type*} (x : ℕ → α) (i n : ℕ) (y : ℕ → α) : ℕ → α :=
  fun r => if i ≤ r ∧ r < i + n then y (r - i) else x r

/-- `A.block(i, j, m, n) = B` -/
def putBlock {α : Type*} (A : ℕ → ℕ → α) (i j m n : ℕ) (B : ℕ → ℕ → α) : ℕ → ℕ → α :=
  fun r c => if (i ≤ r ∧ r < i + m) ∧ (j ≤ c ∧ c < j + n) then B (r - i) (c - j) else A r c

/-- `S * x` for a joint motion subspace with `n` columns -/
def comb [CommRing K] (S : ℕ → Motion K) (n : ℕ) (x : ℕ → K) : Motion K :=
  ∑ k ∈ range n, x k • S k

/-- A joint type: `nq`, `nv`, and what `calc` computes from the joint's own segment of `q` and `v`
(`joint-model-base.hpp:100-125`): the transform `M(q)`, the columns of the motion subspace `S(q)`, the
joint velocity `v` and the bias `c`. For a mimic joint `nv` is `nvExtended` and the segments are those of
the mimicked joint. `setsV` tells whether `calc(q, v)` stores `joint_v` (all joints do, except
`joint-revolute-unaligned.hpp:676-690` and `joint-helical-unaligned.hpp:709-730`). -/
structure Joint (K : Type*) where
  nq : ℕ
  nv : ℕ
  M : (ℕ → K) → SE3 K
  S : (ℕ → K) → ℕ → Motion K
  v : (ℕ → K) → (ℕ → K) → Motion K
  c : (ℕ → K) → (ℕ → K) → Motion K
  setsV : Bool := true

/-- What the algorithms need of a joint at a configuration: `M(q)` is a rigid transform and the joint
velocity is `S(q) * v`. Shown for the concrete joint types in `Verif/Joint`. -/
structure Joint.Ok [CommRing K] (J : Joint K) (q : ℕ → K) : Prop where
  valid : (J.M q).Valid
  vel : ∀ w, J.v q w = comb (J.S q) J.nv w

/-- `JointData`, `joint/joint-data-base.hpp`: `joint_v`, `M`, `S`, `v`, `c`, and the ABA quantities `U`, `Dinv`,
`UDinv`, `StU` (`Force` columns and square matrices). -/
structure JD (K : Type*) where
  jv : ℕ → K
  M : SE3 K
  S : ℕ → Motion K
  v : Motion K
  c : Motion K
  U : ℕ → Force K
  StU : ℕ → ℕ → K
  Dinv : ℕ → ℕ → K
  UDinv : ℕ → Force K

/-- `jmodel.calc(jdata, q)` -/
def Joint.calc (J : Joint K) (q : ℕ → K) (d : JD K) : JD K := { d with M := J.M q, S := J.S q }

/-- `jmodel.calc(jdata, q, v)` -/
def Joint.calcV (J : Joint K) (q v : ℕ → K) (d : JD K) : JD K :=
  { d with M := J.M q, S := J.S q, v := J.v q v, c := J.c q v, jv := if J.setsV then v else d.jv }

/-- The fields of `ModelTpl` (`multibody/model.hpp:96-221`) the algorithms read: `njoints`, `parents`,
`jointPlacements`, `inertias`, `joints`, `idx_q`, `idx_v`, `nv`, `armature`, `gravity`. -/
structure Sys (K : Type*) where
  n : ℕ
  par : ℕ → ℕ
  pl : ℕ → SE3 K
  Y : ℕ → Inertia K
  jt : ℕ → Joint K
  iq : ℕ → ℕ
  iv : ℕ → ℕ
  nv : ℕ
  arm : ℕ → K
  grav : Motion K

/-- The fields of `DataTpl` (`multibody/data.hpp:98-500`) the modelled algorithms read or write. -/
structure Data (K : Type*) where
  joints : ℕ → JD K
  liMi : ℕ → SE3 K
  oMi : ℕ → SE3 K
  v : ℕ → Motion K
  a : ℕ → Motion K
  a_gf : ℕ → Motion K
  oa : ℕ → Motion K
  oa_gf : ℕ → Motion K
  ov : ℕ → Motion K
  f : ℕ → Force K
  of : ℕ → Force K
  h : ℕ → Force K
  oh : ℕ → Force K
  Ycrb : ℕ → Inertia K
  oYcrb : ℕ → Inertia K
  oinertias : ℕ → Inertia K
  doYcrb : ℕ → M6 K
  Yaba : ℕ → M6 K
  oYaba : ℕ → M6 K
  B : ℕ → M6 K
  J : ℕ → Motion K
  dJ : ℕ → Motion K
  Ag : ℕ → Force K
  dAg : ℕ → Force K
  dFdv : ℕ → Force K
  dFdq : ℕ → Force K
  dFda : ℕ → Force K
  dHdq : ℕ → Force K
  dVdq : ℕ → Motion K
  dAdq : ℕ → Motion K
  dAdv : ℕ → Motion K
  dtau_dq : ℕ → ℕ → K
  dtau_dv : ℕ → ℕ → K
  ddq_dq : ℕ → ℕ → K
  ddq_dv : ℕ → ℕ → K
  Fcrb : ℕ → ℕ → Force K
  M : ℕ → ℕ → K
  C : ℕ → ℕ → K
  Minv : ℕ → ℕ → K
  tau : ℕ → K
  nle : ℕ → K
  g : ℕ → K
  ddq : ℕ → K
  u : ℕ → K
  com : ℕ → V3 K
  vcom : ℕ → V3 K
  acom : ℕ → V3 K
  mass : ℕ → K
  Jcom : ℕ → V3 K
  hg : Force K
  dhg : Force K
  Ig : Inertia K
  kinetic_energy : K
  potential_energy : K
  mechanical_energy : K
  oMf : ℕ → SE3 K
  iMf : ℕ → SE3 K

/-- a `Data` full of zeros, used in examples -/
def Data.zero [CommRing K] : Data K where
  joints _ := ⟨fun _ => 0, 1, fun _ => 0, 0, 0, fun _ => 0, fun _ _ => 0, fun _ _ => 0, fun _ => 0⟩
  liMi _ := 1
  oMi _ := 1
  v _ := 0
  a _ := 0
  a_gf _ := 0
  oa _ := 0
  oa_gf _ := 0
  ov _ := 0
  f _ := 0
  of _ := 0
  h _ := 0
  oh _ := 0
  Ycrb _ := 0
  oYcrb _ := 0
  oinertias _ := 0
  doYcrb _ := 0
  Yaba _ := 0
  oYaba _ := 0
  B _ := 0
  J _ := 0
  dJ _ := 0
  Ag _ := 0
  dAg _ := 0
  dFdv _ := 0
  dFdq _ := 0
  dFda _ := 0
  dHdq _ := 0
  dVdq _ := 0
  dAdq _ := 0
  dAdv _ := 0
  dtau_dq _ _ := 0
  dtau_dv _ _ := 0
  ddq_dq _ _ := 0
  ddq_dv _ _ := 0
  Fcrb _ _ := 0
  M _ _ := 0
  C _ _ := 0
  Minv _ _ := 0
  tau _ := 0
  nle _ := 0
  g _ := 0
  ddq _ := 0
  u _ := 0
  com _ := 0
  vcom _ := 0
  acom _ := 0
  mass _ := 0
  Jcom _ := 0
  hg := 0
  dhg := 0
  Ig := 0
  kinetic_energy := 0
  potential_energy := 0
  mechanical_energy := 0
  oMf _ := 1
  iMf _ := 1

/-- `x[i] = y` -/
abbrev upd {α : Type*} (x : ℕ → α) (i : ℕ) (y : α) : ℕ → α := Function.update x i y

theorem upd_self {α : Type*} (x : ℕ → α) (i : ℕ) (y : α) : upd x i y i = y := Function.update_self ..
theorem upd_ne {α : Type*} (x : ℕ → α) {i j : ℕ} (y : α) (h : j ≠ i) : upd x i y j = x j :=
  Function.update_of_ne h ..

namespace Sys
variable (s : Sys K)

/-- the configuration segment of joint `i` -/
def qs (q : ℕ → K) (i : ℕ) : ℕ → K := seg q (s.iq i)
/-- the velocity segment of joint `i` -/
def vs (v : ℕ → K) (i : ℕ) : ℕ → K := seg v (s.iv i)
/-- number of columns of the motion subspace of joint `i` -/
def jnv (i : ℕ) : ℕ := (s.jt i).nv

/-- Tables of a well-formed model: parents come first and velocity segments stay inside `[0, nv)`.
Both are consequences of construction (`Model.toSys_wf`). -/
structure WF : Prop where
  par : ParOk s.par s.n
  ivle : ∀ i, 1 ≤ i → i < s.n → s.iv i + s.jnv i ≤ s.nv

/-- what the algorithms need at configuration `q`: placements are rigid and joints are lawful -/
structure At [CommRing K] (q : ℕ → K) : Prop where
  pl : ∀ i, 1 ≤ i → i < s.n → (s.pl i).Valid
  jt : ∀ i, 1 ≤ i → i < s.n → (s.jt i).Ok (s.qs q i)
end Sys
end Pin
