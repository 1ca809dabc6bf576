import Verif.Algo.Passes
import Verif.Algo.Examples
import Verif.Spec.Along
import Verif.Model.ToSys
import Verif.Props.Construction

/-!
# C11: forward kinematics

The specification is in `Verif/Spec/Kinematics.lean`: `path` (chain of joints down to a joint), `X`
(placement times joint transform), `oM` (product along the chain), `V` (velocity), `A` (acceleration).
`d` is any previous content of `Data`, and no right-hand side mentions it.
-/

namespace Pin
open Finset DualNumber TrivSqZeroExt
universe u
variable {K : Type u} [CommRing K] {s : Sys K}

/-- the chain is the `supports` table of every reachable model, without the universe -/
theorem C11_chain {L P : Type*} [Field L] [LinearOrder L] [HasEps L] {p0 : P} {m : Model L P} (h : Model.Reach p0 m) :
    ∀ j, j < m.njoints → m.supports.getD j [] = 0 :: path (fun i => m.parents.getD i 0) j := by
  have hi := h.inv
  intro j
  induction j using Nat.strong_induction_on with
  | _ j ih =>
    intro hj
    rcases Nat.eq_zero_or_pos j with rfl | h1
    · rw [hi.sup0, path_zero]
    · have hp := hi.par j h1 hj
      rw [hi.sup j h1 hj, ih _ hp (by omega), path_step (par := fun i => m.parents.getD i 0) h1 hp]
      rfl

/-- The three overloads of `forwardKinematics` leave in `oMi[j]` the product of the transforms along the
chain, which is a rigid transform. -/
theorem C11_placements (hp : ParOk s.par s.n) (d : Data K) {q : ℕ → K} (hq : s.At q) (v a : ℕ → K)
    {j : ℕ} (h1 : 1 ≤ j) (hj : j < s.n) :
    let P := ((path s.par j).map (fun i => s.pl i * (s.jt i).M (s.qs q i))).foldl (· * ·) 1
    (forwardKinematics s d q).oMi j = P ∧ (forwardKinematicsV s d q v).oMi j = P ∧
    (forwardKinematicsA s d q v a).oMi j = P ∧ P.rot.IsRot ∧
    (forwardKinematics s d q).liMi j = s.pl j * (s.jt j).M (s.qs q j) := by
  intro P
  have e : P = s.oM q j := rfl
  rw [e]
  exact ⟨(fk0_ok hp d q j h1 hj).2.1, ((fk1_ok hp d hq v).1 j h1 hj).2.1, ((fk2_ok hp d hq v a).1 j h1 hj).2.1,
    s.oM_valid hp hq j hj, (fk0_ok hp d q j h1 hj).1⟩

/-- `updateGlobalPlacements` recomputes `oMi` from `liMi` -/
theorem C11_updateGlobalPlacements (hp : ParOk s.par s.n) (d : Data K) {j : ℕ} (h1 : 1 ≤ j) (hj : j < s.n) :
    (updateGlobalPlacements s d).oMi j = ((path s.par j).map d.liMi).foldl (· * ·) 1 := by
  have key := fwd_ind (step := fun i (d : Data K) => { d with
    oMi := upd d.oMi i (if s.par i > 0 then d.oMi (s.par i) * d.liMi i else d.liMi i) }) (n := s.n) (d := d)
    (P := fun k (e : Data K) => e.liMi = d.liMi ∧ ∀ j, 1 ≤ j → j < k →
      e.oMi j = ((path s.par j).map d.liMi).foldl (· * ·) 1) hp.1 ⟨rfl, fun j a b => by omega⟩ (by
      rintro i e hi1 hi ⟨a, b⟩
      refine ⟨a, fun j hj1 hj => ?_⟩
      have hpi := hp.2 i hi1 hi
      by_cases hji : j = i
      · subst hji
        simp only [upd_self]
        rw [path_step hj1 hpi, List.map_append, List.foldl_append, a]
        split
        · rw [b _ (by omega) hpi]; rfl
        · have : s.par j = 0 := by omega
          rw [this, path_zero]
          exact (SE3.one_mul _).symm
      · simp only [upd_ne _ _ hji]; exact b j hj1 (by omega))
  exact key.2 j h1 hj

/-- `v[j]` is the sum of the motions of the joints on the chain, transported to `j`; `getVelocity` expresses
it in the world frame or in a frame aligned with the world. -/
theorem C11_velocity (hp : ParOk s.par s.n) (d : Data K) {q : ℕ → K} (hq : s.At q) (v a : ℕ → K)
    {j : ℕ} (h1 : 1 ≤ j) (hj : j < s.n) :
    let W := ∑ i ∈ supp s.par s.n j, (s.oM q i).act (s.jvel q v i)
    (forwardKinematicsV s d q v).v j = (s.oM q j).actInv W ∧
    (forwardKinematicsA s d q v a).v j = (s.oM q j).actInv W ∧
    getVelocity (forwardKinematicsV s d q v) j .LOCAL = (s.oM q j).actInv W ∧
    getVelocity (forwardKinematicsV s d q v) j .WORLD = W ∧
    getVelocity (forwardKinematicsV s d q v) j .LOCAL_WORLD_ALIGNED
      = ⟨W.lin + W.ang.cross (s.oM q j).trans, W.ang⟩ := by
  intro W
  have hv := s.oM_valid hp hq j hj
  have eW : W = s.oV q v j := (Sys.oV_eq hp hq v j hj).symm
  have eV : (s.oM q j).actInv W = s.V q v j := by rw [eW]; exact SE3.actInv_act hv _
  obtain ⟨f1, f2⟩ := fk1_ok hp d hq v
  obtain ⟨-, g2, -⟩ := fk2_ok hp d hq v a
  have e1 := (f2 j h1 hj).1
  have e2 := (f1 j h1 hj).2.1
  refine ⟨by rw [eV, e1], by rw [eV, (g2 j h1 hj).1], by rw [eV]; exact e1, ?_, ?_⟩
  · unfold getVelocity inFrame
    rw [e1, e2, ← eV, SE3.act_actInv hv]
  · unfold getVelocity inFrame
    rw [e1, e2, eW]
    unfold Sys.oV
    ext1
    · simp only [SE3.act]
      ext <;> simp <;> ring
    · rfl

/-- The recursion of the velocity: the parent's velocity seen from the joint, plus the joint's own. -/
theorem C11_velocity_recursion (hp : ParOk s.par s.n) (d : Data K) {q : ℕ → K} (hq : s.At q) (v : ℕ → K)
    {j : ℕ} (h1 : 1 ≤ j) (hj : j < s.n) :
    (forwardKinematicsV s d q v).v j = s.jvel q v j
      + (s.X q j).actInv (if s.par j = 0 then 0 else (forwardKinematicsV s d q v).v (s.par j)) := by
  have hpj := hp.2 j h1 hj
  obtain ⟨-, f2⟩ := fk1_ok hp d hq v
  rw [(f2 j h1 hj).1, s.V_step h1 hpj]
  split
  · rename_i h; rw [h, s.V_zero]
  · rw [(f2 _ (by omega) (by omega)).1]

/-- Along a trajectory with joint velocity `v` and acceleration `a`, `a[j]` is the time derivative of the
body velocity. -/
theorem C11_acceleration (hp : ParOk s.par s.n) (d : Data K) {q : ℕ → K} (hq : s.At q) (v a dq : ℕ → K)
    {sε : Sys K[ε]} (h : s.Along sε q v dq) {j : ℕ} (hj : j < s.n) :
    (forwardKinematicsA s d q v a).a j = (sε.V (perturb q dq) (perturb v a) j).map snd := by
  rw [Sys.V_snd h hp hq a j hj]
  exact (fk2_ok hp d hq v a).2.2 j hj

/-- Along a trajectory the linear part of `getClassicalAcceleration` in `LOCAL_WORLD_ALIGNED` is the derivative of
the velocity of the joint origin in the world; in `LOCAL` it is the same vector seen from the joint. The angular
part is the derivative of the angular velocity. -/
theorem C11_classicalAcceleration (hp : ParOk s.par s.n) (d : Data K) {q : ℕ → K} (hq : s.At q) (v a dq : ℕ → K)
    {sε : Sys K[ε]} (h : s.Along sε q v dq) (dε : Data K[ε]) (hqε : sε.At (perturb q dq)) {j : ℕ} (h1 : 1 ≤ j)
    (hj : j < s.n) :
    let acc := fun rf => getClassicalAcceleration (forwardKinematicsA s d q v a) j rf
    let vel := getVelocity (forwardKinematicsV sε dε (perturb q dq) (perturb v a)) j .LOCAL_WORLD_ALIGNED
    acc .LOCAL_WORLD_ALIGNED = vel.map snd ∧
    (s.oM q j).rot.mulVec (acc .LOCAL).lin = (vel.map snd).lin ∧
    (s.oM q j).rot.mulVec (acc .LOCAL).ang = (vel.map snd).ang := by
  intro acc vel
  have hpε : ParOk sε.par sε.n := by rw [h.par, h.n]; exact hp
  obtain ⟨f1, f2, f3⟩ := fk2_ok hp d hq v a
  obtain ⟨g1, g2⟩ := fk1_ok hpε dε hqε (perturb v a)
  have hv := s.oM_valid hp hq j hj
  have hm := Sys.oM_moves h hp hq j hj
  have hjε : j < sε.n := by rw [h.n]; exact hj
  have hb : (sε.oM (perturb q dq) j).rot.map fst = (s.oM q j).rot := congrArg SE3.rot hm.base
  have key : ∀ x : V3 K[ε], ((sε.oM (perturb q dq) j).rot.mulVec x).map snd
      = (s.oM q j).rot.mulVec ((s.V q v j).ang.cross (x.map fst) + x.map snd) := by
    intro x
    rw [M3.map_snd_mulVec, hm.rot, hb, M3.mulVec_mulVec, M3.skew_mulVec, M3.mulVec_add]
  have e1 := Sys.V_fst h hp hq v a j hj
  have e2 := Sys.V_snd h hp hq a j hj
  have el1 : (sε.V (perturb q dq) (perturb v a) j).lin.map fst = (s.V q v j).lin := congrArg Motion.lin e1
  have ea1 : (sε.V (perturb q dq) (perturb v a) j).ang.map fst = (s.V q v j).ang := congrArg Motion.ang e1
  have el2 : (sε.V (perturb q dq) (perturb v a) j).lin.map snd = (s.A 0 q v a j).lin := congrArg Motion.lin e2
  have ea2 : (sε.V (perturb q dq) (perturb v a) j).ang.map snd = (s.A 0 q v a j).ang := congrArg Motion.ang e2
  have evel : vel.map snd = ⟨(s.oM q j).rot.mulVec ((s.V q v j).ang.cross (s.V q v j).lin + (s.A 0 q v a j).lin),
      (s.oM q j).rot.mulVec (s.A 0 q v a j).ang⟩ := by
    have e0 : vel = ⟨(sε.oM (perturb q dq) j).rot.mulVec (sε.V (perturb q dq) (perturb v a) j).lin,
        (sε.oM (perturb q dq) j).rot.mulVec (sε.V (perturb q dq) (perturb v a) j).ang⟩ := by
      simp only [vel, getVelocity, inFrame, (g1 j h1 hjε).2.1, (g2 j h1 hjε).1]
    rw [e0]
    ext1
    · change ((sε.oM (perturb q dq) j).rot.mulVec _).map snd = _
      rw [key, el1, el2]
    · change ((sε.oM (perturb q dq) j).rot.mulVec _).map snd = _
      rw [key, ea1, ea2]
      have : (s.V q v j).ang.cross (s.V q v j).ang = 0 := by ext <;> simp <;> ring
      rw [this, zero_add]
  rw [evel]
  have eo := (f1 j h1 hj).2.1
  have ev := (f2 j h1 hj).1
  have ea := f3 j hj
  refine ⟨?_, ?_, ?_⟩
  · simp only [acc, getClassicalAcceleration, getVelocity, getAcceleration, inFrame, eo, ev, ea]
    rw [← M3.IsRot.mulVec_cross hv, ← M3.mulVec_add, add_comm]
  · simp only [acc, getClassicalAcceleration, getVelocity, getAcceleration, inFrame, ev, ea]
    rw [add_comm]
  · simp only [acc, getClassicalAcceleration, getVelocity, getAcceleration, inFrame, ev, ea]

/-- and the placements move with the computed velocities -/
theorem C11_velocity_is_derivative (hp : ParOk s.par s.n) (d : Data K) {q : ℕ → K} (hq : s.At q) (v dq : ℕ → K)
    {sε : Sys K[ε]} (h : s.Along sε q v dq) {j : ℕ} (h1 : 1 ≤ j) (hj : j < s.n) :
    (sε.oM (perturb q dq) j).Moves ((forwardKinematicsV s d q v).oMi j) ((forwardKinematicsV s d q v).v j) := by
  obtain ⟨f1, f2⟩ := fk1_ok hp d hq v
  rw [(f1 j h1 hj).2.1, (f2 j h1 hj).1]
  exact Sys.oM_moves h hp hq j hj

/-- `getRelativePlacement(i, j)` maps frame `j` to frame `i` -/
theorem C11_relativePlacement (hp : ParOk s.par s.n) (d : Data K) {q : ℕ → K} (hq : s.At q) {i j : ℕ}
    (hi1 : 1 ≤ i) (hi : i < s.n) (hj1 : 1 ≤ j) (hj : j < s.n) :
    s.oM q i * getRelativePlacementWorld (forwardKinematics s d q) i j = s.oM q j := by
  unfold getRelativePlacementWorld
  rw [(fk0_ok hp d q i hi1 hi).2.1, (fk0_ok hp d q j hj1 hj).2.1]
  have hv : (s.oM q i).rot.IsRot := s.oM_valid hp hq i hi
  ext1
  · simp only [SE3.actInvSE3, SE3.mul_rot]
    rw [← M3.mul_assoc', hv.mul_tr, M3.one_mul']
  · simp only [SE3.actInvSE3, SE3.mul_trans]
    rw [hv.mulVec_tr_mulVec]
    abel

/-! The hypotheses are met by the example robot, along a trajectory. -/
namespace Ex
/-- joint velocity of the example -/
def vA : ℕ → ℚ := fun k => (k : ℚ) + 1
/-- the derivative of `qA` when the joint velocity is `vA` -/
def dqA : ℕ → ℚ := fun k =>
  if k = 0 then 1 else if k = 1 then 2 else
  if k = 2 then 1 else if k = 3 then 1/2 else if k = 4 then 3/2 else if k = 5 then -3 else 6

/-- joints of the example over dual numbers -/
def jtAε : ℕ → Joint ℚ[ε]
  | 1 => jRevolute 2
  | 2 => jPrismatic 0
  | 3 => jSpherical
  | _ => jRevoluteUnaligned (ax.map inl)

/-- the example robot over dual numbers -/
def sysAε : Sys ℚ[ε] where
  n := sysA.n
  par := sysA.par
  pl i := (sysA.pl i).map inl
  Y i := (sysA.Y i).map inl
  jt := jtAε
  iq := sysA.iq
  iv := sysA.iv
  nv := sysA.nv
  arm r := inl (sysA.arm r)
  grav := sysA.grav.map inl

theorem kin_of_eq {J : Joint ℚ} {Jε : Joint ℚ[ε]} {q w dq dq' : ℕ → ℚ} (h : J.Kinematic Jε q w dq')
    (hM : Jε.M (perturb q dq) = Jε.M (perturb q dq')) (hS : Jε.S (perturb q dq) = Jε.S (perturb q dq')) :
    J.Kinematic Jε q w dq :=
  ⟨by rw [hM]; exact h.moves, by rw [hS]; exact h.base, by rw [hS]; exact h.bias⟩

theorem sysA_along : sysA.Along sysAε qA vA dqA := by
  refine ⟨rfl, rfl, fun _ => rfl, fun _ => rfl, rfl, rfl, rfl, fun i => ?_, fun _ => rfl, rfl, fun i h1 hi => ?_⟩
  · change (jtAε i).nv = (jtA i).nv
    match i with
    | 0 => rfl
    | 1 => rfl
    | 2 => rfl
    | 3 => rfl
    | _ + 4 => rfl
  · change i < 5 at hi
    interval_cases i
    · exact kin_of_eq (jRevolute_kin 2 _ _) (by simp [jRevolute, jtAε, sysAε, Sys.qs, Sys.vs, seg, sysA, perturb, dqA, vA]) rfl
    · exact kin_of_eq (jPrismatic_kin 0 _ _) (by
        simp [jPrismatic, jtAε, sysAε, Sys.qs, Sys.vs, seg, sysA, perturb, dqA, vA]; norm_num) rfl
    · refine jSpherical_kin (by simp [Sys.qs, seg, sysA, qA]; norm_num) ?_
      constructor <;> simp [Sys.qs, Sys.vs, seg, sysA, qA, dqA, vA, V3.ofSeq] <;> norm_num
    · exact kin_of_eq (jRevoluteUnaligned_kin (by norm_num [V3.sqNorm, ax]) _ _) (by
        simp [jRevoluteUnaligned, jtAε, sysAε, Sys.qs, Sys.vs, seg, sysA, perturb, dqA, vA]; norm_num) rfl
end Ex

example : ParOk Ex.sysA.par Ex.sysA.n ∧ Ex.sysA.At Ex.qA ∧ Ex.sysA.Along Ex.sysAε Ex.qA Ex.vA Ex.dqA :=
  ⟨Ex.sysA_par, Ex.sysA_at, Ex.sysA_along⟩

end Pin
