import Verif.Model.ReachLemmas
import Verif.Spatial.SE3

/-! # `findCommonAncestor` and `getRelativePlacement` -/

namespace Pin
namespace Model
variable {K P : Type*}

/-- The loop of `findCommonAncestor`, `algorithm/model.hxx:1043-1049`. Decrementing an index that is already
`0` wraps around and reads out of the vector: `none`, as any other read out of range. -/
def caLoop (s1 s2 : List ℕ) (j1 j2 i1 i2 : ℕ) : Option (ℕ × ℕ × ℕ) :=
  if j1 = j2 then some (j1, i1, i2)
  else if j1 > j2 then
    match i1 with
    | 0 => none
    | k + 1 => match s1[k]? with
      | none => none
      | some j => caLoop s1 s2 j j2 k i2
  else
    match i2 with
    | 0 => none
    | k + 1 => match s2[k]? with
      | none => none
      | some j => caLoop s1 s2 j1 j i1 k
termination_by i1 + i2

/-- `findCommonAncestor(model, joint1_id, joint2_id, index1, index2)`, `algorithm/model.hxx:1017-1052`:
the ancestor and its two positions. `throw` is `std::invalid_argument`. The empty support whose `size() - 1`
would wrap around is `ub`. -/
def findCommonAncestor (m : Model K P) (j1 j2 : ℕ) : Res Unit (ℕ × ℕ × ℕ) :=
  if ¬ j1 < m.njoints then .throw ()
  else if ¬ j2 < m.njoints then .throw ()
  else if j1 = 0 ∨ j2 = 0 then .ok () (0, 0, 0)
  else match m.supports[j1]?, m.supports[j2]? with
    | some s1, some s2 =>
      if s1.length = 0 ∨ s2.length = 0 then .ub
      else match caLoop s1 s2 j1 j2 (s1.length - 1) (s2.length - 1) with
        | some r => .ok () r
        | none => .ub
    | _, _ => .ub

/-- `for (i = support.size() - 1; i > stop; i--) { j = support[i]; M = liMi[j].act(M); }`,
`algorithm/kinematics.hxx:302-306, 309-313`. Here `n = support.size()`; reads out of range are `none`. -/
def climb [CommRing K] (liMi : ℕ → SE3 K) (sup : List ℕ) (stop : ℕ) : ℕ → SE3 K → Option (SE3 K)
  | 0, M => some M
  | i + 1, M =>
    if i > stop then
      match sup[i]? with
      | none => none
      | some j => climb liMi sup stop i (liMi j * M)
    else some M

/-- `Convention`, `multibody/fwd.hpp`. -/
inductive Conv
  | WORLD
  | LOCAL
deriving DecidableEq

/-- `getRelativePlacement(model, data, ref, target, convention)`, `algorithm/kinematics.hxx:282-322`.
`act` of two placements is their product, `actInv` is `actInvSE3` (`spatial/se3-tpl.hpp:314-325`). -/
def getRelativePlacement [CommRing K] (m : Model K P) (liMi oMi : ℕ → SE3 K) (r t : ℕ) :
    Conv → Res Unit (SE3 K)
  | .WORLD => .ok () ((oMi r).actInvSE3 (oMi t))
  | .LOCAL =>
    match m.findCommonAncestor r t with
    | .ok _ (_, ir, it) =>
      match m.supports[r]?, m.supports[t]? with
      | some sr, some st =>
        match climb liMi sr ir sr.length 1, climb liMi st it st.length 1 with
        | some Mr, some Mt => .ok () (Mr.actInvSE3 Mt)
        | _, _ => .ub
      | _, _ => .ub
    | .throw _ => .throw ()
    | .ub => .ub

end Model
end Pin
