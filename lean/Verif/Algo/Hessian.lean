import Verif.Algo.Rows
import Verif.Algo.Jacobian

/-!
# Kinematic Hessians

`computeJointKinematicHessians` and `getJointKinematicHessian`, `algorithm/kinematics-derivatives.hxx:968-1278`.

A tensor of size `6 × nv × nv` is a function `H` with `H outer inner` the six entries at
`data() + outer * 6 * nv + inner * 6`. Asserts and checks of dimensions are not modelled.
-/

namespace Pin
universe u
variable {K : Type u}

/-- a tensor `6 × nv × nv`: the motion at slice `outer`, column `inner` -/
abbrev Hess (K : Type u) := ℕ → ℕ → Motion K

/-- write of the six entries of slice `a`, column `b` -/
def upd2 (H : Hess K) (a b : ℕ) (m : Motion K) : Hess K := upd H a (upd (H a) b m)

/-- The tables the functions read: `model.supports`, `model.subtrees` (`multibody/model.hxx:132-147`),
`data.supports_fromRow`, `data.start_idx_v_fromRow` and `data.end_idx_v_fromRow` (`multibody/data.hxx:286-343`).
How they are computed is the subject of `Model/Construction.lean` and `Model/DataTables.lean`. -/
structure HTab where
  sup : ℕ → List ℕ
  sub : ℕ → List ℕ
  supRow : ℕ → List ℕ
  start : ℕ → ℕ
  stop : ℕ → ℕ

variable [CommRing K]

/-- the rows of joint `i`: `idx_vs[i]`, ..., `idx_vs[i] + nvs[i] - 1` -/
def rowsOfJoint (s : Sys K) (i : ℕ) : List ℕ := (List.range (s.jnv i)).map (fun k => s.iv i + k)

/-- the loop `for (inner_row_id in l) kinematic_hessians(outer, inner) = - kinematic_hessians(inner, outer)`,
`algorithm/kinematics-derivatives.hxx:1005-1018, 1024-1033` -/
def hessNeg (outer : ℕ) (l : List ℕ) (H : Hess K) : Hess K :=
  l.foldl (fun H inner => upd2 H outer inner (-(H inner outer))) H

/-- the loop `for (inner_row_id in l) kinematic_hessians(outer, inner) = S1.cross(S2)`,
`algorithm/kinematics-derivatives.hxx:1035-1045, 1053-1064` -/
def hessCross (J : ℕ → Motion K) (outer : ℕ) (l : List ℕ) (H : Hess K) : Hess K :=
  l.foldl (fun H inner => upd2 H outer inner ((J outer).cross (J inner))) H

/-- Body of the loop on `joint_row`, `algorithm/kinematics-derivatives.hxx:996-1066`. The universe, first in
`model.supports`, has no row (`nvs[0] = 0`) and is skipped. -/
def hessRow (s : Sys K) (T : HTab) (J : ℕ → Motion K) (j row : ℕ) (H : Hess K) : Hess K :=
  let outer := s.iv j + row
  let H := (T.sup j).dropLast.tail.foldl (fun H i => hessNeg outer (rowsOfJoint s i) H) H
  let H := hessNeg outer ((List.range row).map (fun k => s.iv j + k)) H
  let H := hessCross J outer ((List.range' (row + 1) (s.jnv j - (row + 1))).map (fun k => s.iv j + k)) H
  (T.sub j).tail.foldl (fun H i => hessCross J outer (rowsOfJoint s i) H) H

/-- `computeJointKinematicHessians`, `algorithm/kinematics-derivatives.hxx:968-1068`. `J` is `data.J`, `H` what
`data.kinematic_hessians` holds before the call. -/
def computeJointKinematicHessians (s : Sys K) (T : HTab) (J : ℕ → Motion K) (H : Hess K) : Hess K :=
  fwd (fun j H => (List.range (s.jnv j)).foldl (fun H row => hessRow s T J j row H) H) s.n H

/-- `for (i = 0; i < l.size(); ++i) step(l[i], l[i+1], l[i+2], ...)` -/
def laterLoop {D : Type*} (step : ℕ → List ℕ → D → D) : List ℕ → D → D
  | [], x => x
  | a :: l, x => laterLoop step l (step a l x)

/-- one row `outer` in the case `WORLD`, `algorithm/kinematics-derivatives.hxx:1118-1147`; `Hs` is
`data.kinematic_hessians` -/
def hessWorldStep (T : HTab) (Hs : Hess K) (outer : ℕ) (later : List ℕ) (H : Hess K) : Hess K :=
  let H := (List.range' (T.start outer) (outer - T.start outer)).foldl
    (fun H inner => upd2 H outer inner (Hs outer inner)) H
  later.foldl (fun H inner => upd2 H outer inner (Hs outer inner)) H

/-- `vec_out = vec_in; m_out.linear() -= ...`, `algorithm/kinematics-derivatives.hxx:1184-1196, 1211-1224` -/
def hessLwaCol (p : V3 K) (J : ℕ → Motion K) (Hs : Hess K) (outer inner : ℕ) : Motion K :=
  let S1 := J outer
  let S2 := J inner
  let X := Hs outer inner
  ⟨X.lin - ((S1.lin - p.cross S1.ang).cross S2.ang + p.cross X.ang), X.ang⟩

/-- `m_out.linear() = ...` (the angular part is not written),
`algorithm/kinematics-derivatives.hxx:1174-1175, 1199-1207` -/
def hessLwaLin (p : V3 K) (J : ℕ → Motion K) (outer inner : ℕ) (old : Motion K) : Motion K :=
  ⟨-((J outer).lin - p.cross (J outer).ang).cross (J inner).ang, old.ang⟩

/-- one row `outer` in the case `LOCAL_WORLD_ALIGNED`, `algorithm/kinematics-derivatives.hxx:1154-1226`; `L` is
`supporting_indexes`, `p` is `oMlast.translation()` -/
def hessLwaStep (T : HTab) (p : V3 K) (J : ℕ → Motion K) (Hs : Hess K) (L : List ℕ) (outer : ℕ) (later : List ℕ)
    (H : Hess K) : Hess K :=
  let H := (L.takeWhile (fun inner => decide (inner < T.start outer))).foldl
    (fun H inner => upd2 H outer inner (hessLwaLin p J outer inner (H outer inner))) H
  let H := (List.range' (T.start outer) (outer - T.start outer)).foldl
    (fun H inner => upd2 H outer inner (hessLwaCol p J Hs outer inner)) H
  let H := upd2 H outer outer (hessLwaLin p J outer outer (H outer outer))
  later.foldl (fun H inner => upd2 H outer inner (hessLwaCol p J Hs outer inner)) H

/-- one row `outer` in the case `LOCAL`, `algorithm/kinematics-derivatives.hxx:1233-1271`; `before` is what precedes
`outer` in `supporting_indexes`, from the last to the first -/
def hessLocalStep (s : Sys K) (T : HTab) (oMlast : SE3 K) (Hs : Hess K) (outer : ℕ) (before : List ℕ) (H : Hess K) :
    Hess K :=
  if parentsFromRow s (T.start outer) < 0 then H
  else
    let H := (List.range' (outer + 1) (T.stop outer - outer)).reverse.foldl
      (fun H inner => upd2 H outer inner (oMlast.actInv (Hs inner outer))) H
    before.foldl (fun H inner => upd2 H outer inner (oMlast.actInv (Hs inner outer))) H

/-- `getJointKinematicHessian`, `algorithm/kinematics-derivatives.hxx:1070-1278`: `d.J` and `d.oMi` are read in
`data`, `Hs` is `data.kinematic_hessians` and `H` what the caller passes in `kinematic_hessian`. -/
def getJointKinematicHessian (s : Sys K) (T : HTab) (d : Data K) (Hs : Hess K) (j : ℕ) (rf : RF) (H : Hess K) :
    Hess K :=
  let L := T.supRow (s.iv j + s.jnv j - 1)
  match rf with
  | .WORLD => laterLoop (hessWorldStep T Hs) L H
  | .LOCAL_WORLD_ALIGNED => laterLoop (hessLwaStep T (d.oMi j).trans d.J Hs L) L H
  | .LOCAL => laterLoop (hessLocalStep s T (d.oMi j) Hs) L.reverse H

/-- What the tables mean. `sup` and `sub` are what C02 proves of `model.supports` and `model.subtrees`, the other
three what C66 proves of the tables of `Data`. -/
structure HTab.Ok (s : Sys K) (T : HTab) : Prop where
  sup : ∀ j, 1 ≤ j → j < s.n → (T.sup j).Pairwise (· < ·) ∧ ∀ i, i ∈ T.sup j ↔ i < s.n ∧ anc s.par i j
  sub : ∀ j, 1 ≤ j → j < s.n → (T.sub j).Pairwise (· < ·) ∧ ∀ i, i ∈ T.sub j ↔ i < s.n ∧ anc s.par j i
  supRow : ∀ j k, 1 ≤ j → j < s.n → k < s.jnv j → (T.supRow (s.iv j + k)).Pairwise (· < ·) ∧
    ∀ r, r ∈ T.supRow (s.iv j + k) ↔
      ∃ i l, 1 ≤ i ∧ i < s.n ∧ l < s.jnv i ∧ r = s.iv i + l ∧ anc s.par i j ∧ (i = j → l ≤ k)
  start : ∀ j k, 1 ≤ j → j < s.n → k < s.jnv j → T.start (s.iv j + k) = s.iv j
  stop : ∀ j k, 1 ≤ j → j < s.n → k < s.jnv j → T.stop (s.iv j + k) = s.iv j + s.jnv j - 1

end Pin
