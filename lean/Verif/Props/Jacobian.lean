import Verif.Algo.JacobianLemmas
import Verif.Algo.Examples
import Verif.Props.Kinematics

/-!
# C17: Jacobians map joint velocities to the velocities of forward kinematics
# C44: time variation of the Jacobians

The velocities are those returned by `getVelocity` and `getFrameVelocity` after `forwardKinematics(q, v)` with
any other `Data`. `Packed` and `Full` say that the velocity segments of the joints follow each other and are not
empty. A Jacobian is passed by the caller: columns outside the support of the joint are not written
(`C17_untouched`), which is why it must be zero before the call for `J v` to be a velocity.
-/

namespace Pin
open Finset DualNumber TrivSqZeroExt
universe u
variable {K : Type u} [CommRing K] {s : Sys K}

/-- columns of the joints that do not support `j` are not written, the other ones do not depend on their
previous content -/
theorem C17_untouched (h : s.Packed) (hf : s.Full) (d : Data K) (q : ℕ → K) {j : ℕ} (hj : j < s.n) (P : SE3 K)
    (rf : RF) (J J' : ℕ → Motion K) {i k : ℕ} (h1 : 1 ≤ i) (hi : i < s.n) (hk : k < s.jnv i) :
    (¬ anc s.par i j →
      getFrameJacobian s (computeJointJacobians s d q) j P rf J (s.iv i + k) = J (s.iv i + k)) ∧
    (anc s.par i j →
      getFrameJacobian s (computeJointJacobians s d q) j P rf J (s.iv i + k)
        = getFrameJacobian s (computeJointJacobians s d q) j P rf J' (s.iv i + k)) := by
  classical
  unfold getFrameJacobian
  rw [translate_at h hf hj rf _ _ _ h1 hi hk, translate_at h hf hj rf _ _ _ h1 hi hk]
  exact ⟨fun ha => if_neg ha, fun ha => by rw [if_pos ha, if_pos ha]⟩

theorem frameJacobian_at (h : s.Packed) (hf : s.Full) {d : Data K} {q : ℕ → K} (hq : s.At q)
    (hpl : PlOk s q s.n d) (hJ : JOk s q s.n d.J) {j : ℕ}
    (hj : j < s.n) {P : SE3 K} (hP : P.Valid) (rf : RF) (J : ℕ → Motion K) {i k : ℕ} (h1 : 1 ≤ i) (hi : i < s.n)
    (hk : k < s.jnv i) [Decidable (anc s.par i j)] :
    getFrameJacobian s d j P rf J (s.iv i + k)
      = if anc s.par i j then translateLin (s.oM q j * P) rf (s.Jc q i k) else J (s.iv i + k) := by
  unfold getFrameJacobian
  rw [translate_at h hf hj rf _ _ _ h1 hi hk]
  split
  · rename_i ha
    have hj1 : 1 ≤ j := by have := anc_le h.par j hj ha; omega
    rw [hJ i h1 hi k hk, (hpl j hj1 hj).2.1]; rfl
  · rfl

theorem frameVelocity_eq (hp : ParOk s.par s.n) (d : Data K) {q : ℕ → K} (hq : s.At q) (v : ℕ → K) {j : ℕ}
    (hj : j < s.n) {P : SE3 K} (hP : P.Valid) (rf : RF) :
    getFrameVelocity (forwardKinematicsV s d q v) j P rf = translateLin (s.oM q j * P) rf (s.oV q v j) := by
  unfold getFrameVelocity
  rcases Nat.eq_zero_or_pos j with rfl | h1
  · have : (forwardKinematicsV s d q v).v 0 = 0 := by
      unfold forwardKinematicsV
      apply fwd_inv (P := fun (d : Data K) => d.v 0 = 0)
      · exact upd_self d.v 0 0
      · intro i d i1 _ ih
        have : (0 : ℕ) ≠ i := by omega
        unfold fk1Step
        split <;> simp only [upd_ne _ _ this] <;> exact ih
    rw [this, Sys.oV_zero, map_zero]
    cases rf
    · exact SE3.act_zero _
    · exact SE3.actInv_zero _
    · simp only [inFrameAt]
      ext <;> simp
  · obtain ⟨f1, f2⟩ := fk1_ok hp d hq v
    rw [(f1 j h1 hj).2.1, (f2 j h1 hj).1]
    exact (translateCol_act (s.oM_valid hp hq j hj) hP _ rf).symm

/-- `getFrameJacobian` (any frame attached to any joint, any reference frame) after `computeJointJacobians(q)`:
`J v` is the velocity of the frame. -/
theorem C17_frame (h : s.Packed) (hf : s.Full) (d d' : Data K) {q : ℕ → K} (hq : s.At q) (v : ℕ → K) {j : ℕ}
    (hj : j < s.n) {P : SE3 K} (hP : P.Valid) (rf : RF) :
    ∑ r ∈ range s.nv, v r • getFrameJacobian s (computeJointJacobians s d q) j P rf (fun _ => 0) r
      = getFrameVelocity (forwardKinematicsV s d' q v) j P rf := by
  obtain ⟨a, b⟩ := jac_ok h d q
  rw [frameVelocity_eq h.par d' hq v hj hP rf]
  refine mul_support h hq hj _ ?_ v
  intro i h1 hi k hk _
  exact frameJacobian_at h hf hq a b hj hP rf _ h1 hi hk

theorem getJointJacobian_eq (d : Data K) (j : ℕ) (rf : RF) (J : ℕ → Motion K) :
    getJointJacobian s d j rf J = getFrameJacobian s d j 1 rf J := by
  unfold getJointJacobian getFrameJacobian; rw [SE3.mul_one]

/-- `getJointJacobian`: `J v` is the velocity of the joint. -/
theorem C17_joint (h : s.Packed) (hf : s.Full) (d d' : Data K) {q : ℕ → K} (hq : s.At q) (v : ℕ → K) {j : ℕ}
    (hj : j < s.n) (rf : RF) :
    ∑ r ∈ range s.nv, v r • getJointJacobian s (computeJointJacobians s d q) j rf (fun _ => 0) r
      = getVelocity (forwardKinematicsV s d' q v) j rf := by
  rw [getJointJacobian_eq, C17_frame h hf d d' hq v hj SE3.valid_one rf]
  exact inFrameAt_one _ _ _

/-- The overload that takes no configuration uses the placements of an earlier kinematics pass. -/
theorem C17_stored (h : s.Packed) (hf : s.Full) (d d' d'' : Data K) {q : ℕ → K} (hq : s.At q) (v w a : ℕ → K)
    {j : ℕ} (hj : j < s.n) {P : SE3 K} (hP : P.Valid) (rf : RF) :
    (∑ r ∈ range s.nv, v r • getFrameJacobian s (computeJointJacobiansData s (forwardKinematics s d q)) j P rf
        (fun _ => 0) r = getFrameVelocity (forwardKinematicsV s d' q v) j P rf) ∧
    (∑ r ∈ range s.nv, v r • getFrameJacobian s (computeJointJacobiansData s (forwardKinematicsA s d'' q w a)) j P
        rf (fun _ => 0) r = getFrameVelocity (forwardKinematicsV s d' q v) j P rf) := by
  have key : ∀ e : Data K, PlOk s q s.n e →
      ∑ r ∈ range s.nv, v r • getFrameJacobian s (computeJointJacobiansData s e) j P rf (fun _ => 0) r
        = getFrameVelocity (forwardKinematicsV s d' q v) j P rf := by
    intro e he
    obtain ⟨a1, a2, a3⟩ := jacData_ok h he
    rw [frameVelocity_eq h.par d' hq v hj hP rf]
    refine mul_support h hq hj _ ?_ v
    intro i h1 hi k hk _
    unfold getFrameJacobian
    rw [translate_at h hf hj rf _ _ _ h1 hi hk]
    split
    · rename_i ha
      have hj1 : 1 ≤ j := by have := anc_le h.par j hj ha; omega
      rw [a3 i h1 hi k hk, a1, (he j hj1 hj).2.1]; rfl
    · rfl
  exact ⟨key _ (fk0_ok h.par d q), key _ (fk2_ok h.par d'' hq w a).1⟩

/-- `computeFrameJacobian` returns what `computeJointJacobians` followed by `getFrameJacobian` returns, in the
three reference frames and whatever the previous contents are. -/
theorem C17_computeFrameJacobian (h : s.Packed) (hf : s.Full) (d d' : Data K) {q : ℕ → K} (hq : s.At q) (f : ℕ)
    {j : ℕ} (hj : j < s.n) {P : SE3 K} (hP : P.Valid) (rf : RF) (J : ℕ → Motion K) {r : ℕ} (hr : r < s.nv) :
    (computeFrameJacobian s d q (0 :: path s.par j) f j P rf J).2 r
      = getFrameJacobian s (computeJointJacobians s d' q) j P rf J r := by
  classical
  obtain ⟨i, k, h1, hi, hk, rfl⟩ := h.cover hr
  obtain ⟨a, b⟩ := jac_ok h d' q
  rw [frameJacobian_at h hf hq a b hj hP rf J h1 hi hk]
  have hv := s.oM_valid h.par hq j hj
  cases rf
  · simp only [computeFrameJacobian, List.tail_cons]
    rw [fold_world h q _ j hj i k h1 hi hk]; rfl
  · simp only [computeFrameJacobian]
    rw [upLoop_jac h hq (T := s.oM q j * P) j (by omega) hj _ (by simp only [upd_self]; exact hP)
      (by simp only [upd_self]) i k h1 hi hk]
    rfl
  · simp only [computeFrameJacobian, List.tail_cons, jacobianLwaStep, upd_self]
    rw [fold_put h _ _ j hj i k h1 hi hk]
    by_cases ha : anc s.par i j
    · rw [if_pos ha, if_pos ha]
      have hj1 : 1 ≤ j := by have := anc_le h.par j hj ha; omega
      rw [(fold_fk0 h.par q d j hj i h1 ha).1, (fold_fk0 h.par q d j hj i h1 ha).2,
        (fold_fk0 h.par q d j hj j hj1 (anc_refl h.par hj)).1]
      change _ = translateCol (s.oM q j * P) (s.Jc q i k) .LOCAL_WORLD_ALIGNED
      simp only [translateCol, Sys.Jc, SE3.act]
      ext <;> simp <;> ring
    · rw [if_neg ha, if_neg ha]

/-- `computeJointJacobian` returns the `LOCAL` Jacobian. -/
theorem C17_computeJointJacobian (h : s.Packed) (hf : s.Full) (d d' : Data K) {q : ℕ → K} (hq : s.At q)
    {j : ℕ} (hj : j < s.n) (J : ℕ → Motion K) {r : ℕ} (hr : r < s.nv) :
    (computeJointJacobian s d q j J).2 r
      = getJointJacobian s (computeJointJacobians s d' q) j .LOCAL J r := by
  rw [getJointJacobian_eq, ← C17_computeFrameJacobian h hf d d' hq 0 hj SE3.valid_one .LOCAL J hr]
  rfl

/-- `updateFramePlacements` and `updateFramePlacement` leave the placement of the frame in the world. -/
theorem C17_framePlacement (hp : ParOk s.par s.n) (d : Data K) (q : ℕ → K) (frames : ℕ → Frame K) {nf f : ℕ}
    (hf1 : 1 ≤ f) (hf : f < nf) (hj1 : 1 ≤ (frames f).parentJoint) (hj : (frames f).parentJoint < s.n) :
    (updateFramePlacements frames nf (forwardKinematics s d q)).oMf f
        = s.oM q (frames f).parentJoint * (frames f).placement ∧
      (updateFramePlacement frames (forwardKinematics s d q) f).oMf f
        = s.oM q (frames f).parentJoint * (frames f).placement := by
  have e := (fk0_ok hp d q _ hj1 hj).2.1
  constructor
  · have := fwd_ind (step := fun i (d : Data K) => { d with
        oMf := upd d.oMf i (d.oMi (frames i).parentJoint * (frames i).placement) }) (n := nf)
      (d := forwardKinematics s d q)
      (P := fun m (x : Data K) => x.oMi = (forwardKinematics s d q).oMi ∧ ∀ g, 1 ≤ g → g < m →
        x.oMf g = (forwardKinematics s d q).oMi (frames g).parentJoint * (frames g).placement) (by omega)
      ⟨rfl, fun g a b => by omega⟩ (by
        rintro i x i1 hi ⟨a, b⟩
        refine ⟨a, fun g g1 hg => ?_⟩
        by_cases eg : g = i
        · subst eg; simp only [upd_self]; rw [a]
        · simp only [upd_ne _ _ eg]; exact b g g1 (by omega))
    exact (this.2 f hf1 hf).trans (by rw [e])
  · unfold updateFramePlacement
    simp only [upd_self]; rw [e]

/-- a model with four joints (one of them with three degrees of freedom), a joint with a support of three joints -/
theorem Ex.sysA_full : Ex.sysA.Full := by
  intro i h1 hi
  change i < 5 at hi
  interval_cases i <;> decide

example : Ex.sysA.Packed ∧ Ex.sysA.Full ∧ Ex.sysA.At Ex.qA ∧ Ex.mB.Valid ∧ path Ex.sysA.par 4 = [1, 3, 4] ∧
    (∃ r, r < Ex.sysA.nv) :=
  ⟨Ex.sysA_packed, Ex.sysA_full, Ex.sysA_at, Ex.mB_valid, by decide +kernel, 0, by decide⟩

/-! ## C44 -/

/-- what the second loop of the time-variation getters subtracts, as a linear map of the Jacobian column -/
def tvLin (T : SE3 K) (vf ov : Motion K) : RF → Motion K →ₗ[K] Motion K
  | .WORLD => 0
  | .LOCAL =>
    { toFun := fun m => vf.cross (T.actInv m)
      map_add' := fun a b => by rw [SE3.actInv_add, Motion.cross_add]
      map_smul' := fun c a => by rw [SE3.actInv_smul, Motion.cross_smul]; rfl }
  | .LOCAL_WORLD_ALIGNED =>
    { toFun := fun m => ⟨(ov.lin + ov.ang.cross T.trans).cross m.ang, 0⟩
      map_add' := fun a b => by ext <;> simp <;> ring
      map_smul' := fun c a => by ext <;> simp <;> ring }

theorem tv_at (h : s.Packed) (hf : s.Full) {d : Data K} {q v : ℕ → K} (hd : TvOk s q v s.n d) (f : ℕ) {j : ℕ}
    (hj : j < s.n) (P : SE3 K) (rf : RF) (X : ℕ → Motion K) {i k : ℕ} (h1 : 1 ≤ i) (hi : i < s.n)
    (hk : k < s.jnv i) [Decidable (anc s.par i j)] :
    (getFrameJacobianTimeVariation s d f j P rf X).2 (s.iv i + k)
      = if anc s.par i j then
          translateLin (s.oM q j * P) rf ((s.oV q v i).cross (s.Jc q i k))
            - tvLin (s.oM q j * P) (P.actInv (s.V q v j)) (s.oV q v j) rf (s.Jc q i k)
        else X (s.iv i + k) := by
  have key : ∀ hj1 : 1 ≤ j, d.oMi j = s.oM q j ∧ d.v j = s.V q v j ∧ d.ov j = s.oV q v j :=
    fun hj1 => ⟨(hd.pl j hj1 hj).2.1, (hd.vel j hj1 hj).1, hd.ov j hj1 hj⟩
  have ht := translate_at h hf hj rf (d.oMi j * P) d.dJ X h1 hi hk
  unfold getFrameJacobianTimeVariation
  simp only [upd_self]
  cases rf
  · simp only [addTv]
    rw [ht]
    split
    · rw [hd.dJ i h1 hi k hk]
      change _ = _ - 0
      rw [sub_zero]; rfl
    · rfl
  · simp only [addTv]
    rw [rowLoop_support h hf (fun r x => x - (P.actInv (d.v j)).cross ((d.oMi j * P).actInv (d.J r))) hj _ h1 hi hk,
      ht]
    split
    · rename_i ha
      have hj1 : 1 ≤ j := by have := anc_le h.par j hj ha; omega
      obtain ⟨k1, k2, k3⟩ := key hj1
      rw [hd.dJ i h1 hi k hk, hd.J i h1 hi k hk, k1, k2]
      rfl
    · rfl
  · simp only [addTv]
    rw [rowLoop_support h hf (fun r (x : Motion K) => (⟨x.lin - ((d.ov j).lin + (d.ov j).ang.cross
        (d.oMi j * P).trans).cross (d.J r).ang, x.ang⟩ : Motion K)) hj _ h1 hi hk, ht]
    split
    · rename_i ha
      have hj1 : 1 ≤ j := by have := anc_le h.par j hj ha; omega
      obtain ⟨k1, k2, k3⟩ := key hj1
      rw [hd.dJ i h1 hi k hk, hd.J i h1 hi k hk, k1, k3]
      ext1
      · rfl
      · exact (sub_zero _).symm
    · rfl

/-- the acceleration that `J̇ v + J a` must be: in `LOCAL_WORLD_ALIGNED` the derivative of the velocity of the
frame origin, that is the classical acceleration; in the other frames the spatial acceleration. -/
def rfAcceleration (d : Data K) (j : ℕ) (P : SE3 K) : RF → Motion K
  | .LOCAL_WORLD_ALIGNED => getFrameClassicalAcceleration d j P .LOCAL_WORLD_ALIGNED
  | rf => getFrameAcceleration d j P rf

theorem Motion.cross_sum' {ι : Type*} (v : Motion K) (t : Finset ι) (g : ι → Motion K) :
    v.cross (∑ i ∈ t, g i) = ∑ i ∈ t, v.cross (g i) := by
  classical
  induction t using Finset.induction_on with
  | empty => rw [sum_empty, sum_empty]; ext <;> simp [Motion.cross]
  | insert a t ha ih => rw [sum_insert ha, sum_insert ha, Motion.cross_add, ih]

theorem crossL_act (q v : ℕ → K) (i : ℕ) :
    comb (fun k => (s.oV q v i).cross (s.Jc q i k)) (s.jnv i) (s.vs v i)
      = (s.oV q v i).cross ((s.oM q i).act (s.jvel q v i)) := by
  rw [← comb_Jc]
  unfold comb
  rw [Motion.cross_sum']
  exact sum_congr rfl fun k _ => (Motion.cross_smul ..).symm

/-- After `computeJointJacobiansTimeVariation(q, v)`, `J̇ v + J a` is the acceleration of the frame, minus the
joint biases `Ṡ v` of its support. -/
theorem C44_acceleration (h : s.Packed) (hf : s.Full) (d d' : Data K) {q : ℕ → K} (hq : s.At q) (v a : ℕ → K)
    (f : ℕ) {j : ℕ} (hj1 : 1 ≤ j) (hj : j < s.n) {P : SE3 K} (hP : P.Valid) (rf : RF) :
    ∑ r ∈ range s.nv, v r • (getFrameJacobianTimeVariation s (computeJointJacobiansTimeVariation s d q v) f j P rf
        (fun _ => 0)).2 r
      + ∑ r ∈ range s.nv, a r • getFrameJacobian s (computeJointJacobiansTimeVariation s d q v) j P rf (fun _ => 0) r
      + translateCol (s.oM q j * P) (∑ i ∈ supp s.par s.n j, (s.oM q i).act (s.cb q v i)) rf
      = rfAcceleration (forwardKinematicsA s d' q v a) j P rf := by
  have hd := tv_ok h d hq v
  have hv := s.oM_valid h.par hq j hj
  have e2 : ∑ r ∈ range s.nv, a r • getFrameJacobian s (computeJointJacobiansTimeVariation s d q v) j P rf
      (fun _ => 0) r = translateLin (s.oM q j * P) rf (s.oV q a j) := by
    refine mul_support h hq hj _ ?_ a
    intro i h1 hi k hk _
    exact frameJacobian_at h hf hq hd.pl hd.J hj hP rf _ h1 hi hk
  rw [e2, sum_support h (fun i h1 hi k hk _ => tv_at h hf hd f hj P rf (fun _ => 0) h1 hi hk)]
  have e3 : ∀ i, comb (fun k => translateLin (s.oM q j * P) rf ((s.oV q v i).cross (s.Jc q i k))
      - tvLin (s.oM q j * P) (P.actInv (s.V q v j)) (s.oV q v j) rf (s.Jc q i k)) (s.jnv i) (s.vs v i)
      = translateLin (s.oM q j * P) rf ((s.oV q v i).cross ((s.oM q i).act (s.jvel q v i)))
        - tvLin (s.oM q j * P) (P.actInv (s.V q v j)) (s.oV q v j) rf ((s.oM q i).act (s.jvel q v i)) := by
    intro i
    rw [← crossL_act, ← comb_lin, ← comb_Jc, ← comb_lin]
    unfold comb
    rw [← sum_sub_distrib]
    exact sum_congr rfl fun k _ => smul_sub _ _ _
  rw [sum_congr rfl (fun i _ => e3 i), sum_sub_distrib, ← map_sum, ← map_sum,
    ← Sys.oV_eq h.par hq v j hj]
  have e4 : translateCol (s.oM q j * P) (∑ i ∈ supp s.par s.n j, (s.oM q i).act (s.cb q v i)) rf
    = translateLin (s.oM q j * P) rf (∑ i ∈ supp s.par s.n j, (s.oM q i).act (s.cb q v i)) := rfl
  have e5 : translateLin (s.oM q j * P) rf (∑ i ∈ supp s.par s.n j, (s.oV q v i).cross ((s.oM q i).act (s.jvel q v i)))
      + translateLin (s.oM q j * P) rf (s.oV q a j)
      + translateLin (s.oM q j * P) rf (∑ i ∈ supp s.par s.n j, (s.oM q i).act (s.cb q v i))
      = inFrameAt (s.oM q j) P (s.A 0 q v a j) rf := by
    rw [← map_add, ← map_add, Sys.oV_eq h.par hq a j hj, ← sum_add_distrib, ← sum_add_distrib,
      ← translateCol_act hv hP]
    change _ = translateLin (s.oM q j * P) rf (s.oA q v a j)
    rw [Sys.oA_eq h.par hq v a j hj]
    congr 1
    exact sum_congr rfl fun i _ => by abel
  obtain ⟨f1, f2, f3⟩ := fk2_ok h.par d' hq v a
  have eo := (f1 j hj1 hj).2.1
  have ea := f3 j hj
  have ev := (f2 j hj1 hj).1
  have e6 : inFrameAt (s.oM q j) P (s.A 0 q v a j) rf
      - tvLin (s.oM q j * P) (P.actInv (s.V q v j)) (s.oV q v j) rf (s.oV q v j)
      = rfAcceleration (forwardKinematicsA s d' q v a) j P rf := by
    cases rf
    · change _ - 0 = _
      simp only [rfAcceleration, getFrameAcceleration, eo, ea, sub_zero]
    · change _ - (P.actInv (s.V q v j)).cross ((s.oM q j * P).actInv (s.oV q v j)) = _
      unfold Sys.oV
      rw [SE3.mul_actInv hv hP, SE3.actInv_act hv, Motion.cross_self, sub_zero]
      simp only [rfAcceleration, getFrameAcceleration, eo, ea]
    · simp only [rfAcceleration, getFrameClassicalAcceleration, getFrameVelocity, getFrameAcceleration, eo, ea, ev]
      rw [← translateCol_act hv hP (s.V q v j)]
      change _ - (⟨((s.oV q v j).lin + (s.oV q v j).ang.cross (s.oM q j * P).trans).cross (s.oV q v j).ang, 0⟩
        : Motion K) = _
      change _ = (⟨_ + (s.oV q v j).ang.cross ((s.oV q v j).lin - (s.oM q j * P).trans.cross (s.oV q v j).ang), _⟩
        : Motion K)
      ext <;> simp <;> ring
  rw [← e6, ← e5, e4]
  abel

/-- so it is the acceleration when the motion subspaces of the joints are constant -/
theorem C44_constant_subspace_partial (h : s.Packed) (hf : s.Full) (d d' : Data K) {q : ℕ → K} (hq : s.At q)
    (v a : ℕ → K) (hc : ∀ i, 1 ≤ i → i < s.n → s.cb q v i = 0)
    (f : ℕ) {j : ℕ} (hj1 : 1 ≤ j) (hj : j < s.n) {P : SE3 K} (hP : P.Valid) (rf : RF) :
    ∑ r ∈ range s.nv, v r • (getFrameJacobianTimeVariation s (computeJointJacobiansTimeVariation s d q v) f j P rf
        (fun _ => 0)).2 r
      + ∑ r ∈ range s.nv, a r • getFrameJacobian s (computeJointJacobiansTimeVariation s d q v) j P rf (fun _ => 0) r
      = rfAcceleration (forwardKinematicsA s d' q v a) j P rf := by
  rw [← C44_acceleration h hf d d' hq v a f hj1 hj hP rf, sum_eq_zero (s := supp s.par s.n j)]
  · change _ = _ + translateLin (s.oM q j * P) rf 0
    rw [map_zero, add_zero]
  · intro i hi
    obtain ⟨⟨a, b⟩, -⟩ := mem_supp.1 hi
    rw [hc i a b]; simp

/-- the same for `getJointJacobianTimeVariation` -/
theorem C44_joint (d : Data K) (f j : ℕ) (rf : RF) (dJ : ℕ → Motion K) :
    getJointJacobianTimeVariation s d j rf dJ = (getFrameJacobianTimeVariation s d f j 1 rf dJ).2 := by
  unfold getJointJacobianTimeVariation getFrameJacobianTimeVariation
  simp only [upd_self, SE3.mul_one]
  have : (1 : SE3 K).actInv (d.v j) = d.v j := by simp
  rw [this]
  cases rf <;> rfl

/-- derivative of a motion carried by a moving placement -/
theorem SE3.Moves.snd_act {Mε : SE3 K[ε]} {M : SE3 K} {ν : Motion K} (h : Mε.Moves M ν) (hv : M.Valid)
    (m : Motion K[ε]) : (Mε.act m).map snd = M.act (ν.cross (m.map fst) + m.map snd) := by
  have hb : Mε.rot.map fst = M.rot := by have := congrArg SE3.rot h.base; exact this
  have hbt : Mε.trans.map fst = M.trans := by have := congrArg SE3.trans h.base; exact this
  have e1 : (Mε.rot.mulVec m.ang).map snd
      = M.rot.mulVec (ν.ang.cross (m.ang.map fst)) + M.rot.mulVec (m.ang.map snd) := by
    rw [M3.map_snd_mulVec, h.rot, hb, M3.mulVec_mulVec, M3.skew_mulVec]
  have e2 : (Mε.rot.mulVec m.lin).map snd
      = M.rot.mulVec (ν.ang.cross (m.lin.map fst)) + M.rot.mulVec (m.lin.map snd) := by
    rw [M3.map_snd_mulVec, h.rot, hb, M3.mulVec_mulVec, M3.skew_mulVec]
  ext1
  · change (Mε.rot.mulVec m.lin + Mε.trans.cross (Mε.rot.mulVec m.ang)).map snd = _
    rw [V3.map_snd_add, V3.map_snd_cross, e1, e2, h.trans, hbt, M3.map_fst_mulVec, hb,
      ← M3.IsRot.mulVec_cross hv]
    simp only [SE3.act, Motion.cross, Motion.add_lin, Motion.add_ang, Motion.map, M3.mulVec_add]
    ext <;> simp <;> ring
  · change (Mε.rot.mulVec m.ang).map snd = _
    rw [e1]
    simp only [SE3.act, Motion.cross, Motion.add_ang, Motion.map, M3.mulVec_add]

/-- Along a trajectory, the column `k` of joint `i` left in `data.dJ` is the derivative of the column left in
`data.J`, up to the derivative of the column of the motion subspace. -/
theorem C44_derivative (h : s.Packed) (d : Data K) {q : ℕ → K} (hq : s.At q) (v dq : ℕ → K)
    {sε : Sys K[ε]} (hs : s.Along sε q v dq) (dε : Data K[ε]) {i k : ℕ} (h1 : 1 ≤ i) (hi : i < s.n)
    (hk : k < s.jnv i) :
    ((computeJointJacobians sε dε (perturb q dq)).J (sε.iv i + k)).map snd
      = (computeJointJacobiansTimeVariation s d q v).dJ (s.iv i + k)
        + (s.oM q i).act ((sε.S (perturb q dq) i k).map snd) := by
  have hε : sε.Packed := by
    refine ⟨by rw [hs.par, hs.n]; exact h.par, fun i h1 hi => ?_, ?_⟩
    · rw [hs.iv, h.iv i h1 (by rw [← hs.n]; exact hi)]
      exact sum_congr rfl fun j _ => (hs.jnv j).symm
    · rw [hs.nv, h.nv, hs.n]
      exact sum_congr rfl fun j _ => (hs.jnv j).symm
  rw [(jac_ok hε dε (perturb q dq)).2 i h1 (by rw [hs.n]; exact hi) k (by rw [hs.jnv]; exact hk),
    (tv_ok h d hq v).dJ i h1 hi k hk]
  have hm := Sys.oM_moves hs h.par hq i hi
  have hS := Sys.S_perturb hs h1 hi hk
  have hv := s.oM_valid h.par hq i hi
  unfold Sys.oV Sys.Jc
  rw [← Motion.act_cross hv, ← hS, hm.snd_act hv, SE3.act_add]

/-- one `JointModelSphericalZYX` -/
def Ex.sysZ : Sys ℚ where
  n := 2
  par _ := 0
  pl _ := 1
  Y _ := Ex.iA
  jt _ := jSphericalZYX
  iq _ := 0
  iv _ := 0
  nv := 3
  arm _ := 0
  grav := 0

theorem Ex.sysZ_ok : Ex.sysZ.Packed ∧ Ex.sysZ.Full ∧ ∀ q, Ex.sysZ.At q := by
  refine ⟨⟨⟨by decide, fun i h1 hi => ?_⟩, fun i h1 hi => ?_, rfl⟩, fun i h1 hi => ?_, fun q =>
    ⟨fun i h1 hi => SE3.valid_one, fun i h1 hi => jSphericalZYX_ok _⟩⟩
  · exact h1
  · change i < 2 at hi
    have : i = 1 := by omega
    subst this; rfl
  · show 1 ≤ 3; decide

set_option maxRecDepth 100000 in
/-- The motion subspace of `JointModelSphericalZYX` is not constant: the acceleration is not `J̇ v + J a` with
the `J̇` of `computeJointJacobiansTimeVariation`. -/
theorem C44_counterexample :
    let q : ℕ → ℚ := fun k => if k = 1 then 1 else 0
    let v : ℕ → ℚ := fun _ => 1
    Ex.sysZ.Packed ∧ Ex.sysZ.Full ∧ Ex.sysZ.At q ∧
    ∑ r ∈ range Ex.sysZ.nv, v r • (getFrameJacobianTimeVariation Ex.sysZ
        (computeJointJacobiansTimeVariation Ex.sysZ Data.zero q v) 0 1 1 .LOCAL (fun _ => 0)).2 r
      + ∑ r ∈ range Ex.sysZ.nv, (0 : ℚ) • getFrameJacobian Ex.sysZ
          (computeJointJacobiansTimeVariation Ex.sysZ Data.zero q v) 1 1 .LOCAL (fun _ => 0) r
      ≠ getFrameAcceleration (forwardKinematicsA Ex.sysZ Data.zero q v (fun _ => 0)) 1 1 .LOCAL := by
  intro q v
  obtain ⟨a, b, c⟩ := Ex.sysZ_ok
  refine ⟨a, b, c q, ?_⟩
  intro hc
  have e'' := congrArg (fun m : Motion ℚ => m.ang.z) hc
  revert e''
  decide +kernel

example : (∀ i, 1 ≤ i → i < Ex.sysA.n → Ex.sysA.cb Ex.qA (fun _ => 1) i = 0) := by
  intro i h1 hi
  change i < 5 at hi
  interval_cases i <;> rfl

end Pin
