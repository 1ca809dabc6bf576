import Verif.Algo.KinDerLemmas
import Verif.Props.Kinematics
import Verif.Props.Jacobian

/-!
# C52: partial derivatives of velocities and accelerations

The matrices the derivative functions return, applied to a direction `(w, δv, δa)`, are compared with the derivative
of what the kinematics functions return when they are run on `(q, v, a)` moved in that direction: `sε` is the model over
dual numbers, `perturb x δx` is `x + ε δx`, and `map snd` takes the coefficient of `ε`. `dq` is the derivative of the
configuration vector when the joint velocity is `w` (`Sys.Along`), as `v_partial_dq` and the others are derivatives with
respect to `w`.

`Sys.ConstS`: no joint has a motion subspace that depends on the configuration.

The output matrices are passed zero-initialised, as the documentation asks.
-/

namespace Pin
open Finset DualNumber TrivSqZeroExt
universe u
variable {K : Type u} [CommRing K] {s : Sys K} {sε : Sys K[ε]} {q w dq : ℕ → K}

/-! ## derivatives of the kinematics, in closed form -/

theorem fkε_at (h : s.Packed) (hal : s.Along sε q w dq) (hqε : sε.At (perturb q dq)) (dε : Data K[ε]) (v a : ℕ → K[ε])
    {j : ℕ} (j1 : 1 ≤ j) (hj : j < s.n) :
    let r := forwardKinematicsA sε dε (perturb q dq) v a
    r.oMi j = sε.oM (perturb q dq) j ∧ r.v j = sε.V (perturb q dq) v j ∧
      r.a j = sε.A ((0 : Motion K).map inl) (perturb q dq) v a j := by
  have hpε : ParOk sε.par sε.n := by rw [hal.par, hal.n]; exact h.par
  have hjε : j < sε.n := by rw [hal.n]; exact hj
  obtain ⟨g1, g2, g3⟩ := fk2_ok hpε dε hqε v a
  refine ⟨(g1 j j1 hjε).2.1, (g2 j j1 hjε).1, ?_⟩
  rw [g3 j hjε]
  congr 1

theorem δV_local (h : s.Packed) (hal : s.Along sε q w dq) (hc : s.ConstS sε) (hq : s.At q) (v δv : ℕ → K)
    {j : ℕ} (hj : j < s.n) :
    (sε.V (perturb q dq) (perturb v δv) j).map snd = (s.oM q j).actInv (s.eV q w v δv j) := by
  rw [← Sys.V_var hal hc h.par hq v δv j hj, SE3.actInv_act (s.oM_valid h.par hq j hj)]

theorem δV_world (h : s.Packed) (hal : s.Along sε q w dq) (hc : s.ConstS sε) (hq : s.At q) (v δv : ℕ → K)
    {j : ℕ} (hj : j < s.n) :
    ((sε.oM (perturb q dq) j).act (sε.V (perturb q dq) (perturb v δv) j)).map snd
      = s.eV q w v δv j - (s.oV q v j).cross (s.oV q w j) := by
  have hM := s.oM_valid h.par hq j hj
  rw [(Sys.oM_moves hal h.par hq j hj).snd_act hM, Sys.V_fst hal h.par hq v δv j hj, SE3.act_add,
    Sys.V_var hal hc h.par hq v δv j hj, Motion.act_cross hM, Motion.cross_anti]
  unfold Sys.oV
  abel

theorem δA_local (h : s.Packed) (hal : s.Along sε q w dq) (hc : s.ConstS sε) (hq : s.At q) (v δv a δa : ℕ → K)
    {j : ℕ} (hj : j < s.n) :
    (sε.A ((0 : Motion K).map inl) (perturb q dq) (perturb v δv) (perturb a δa) j).map snd
      = (s.oM q j).actInv (s.hA 0 q w v δv a δa j - (s.oV q v j).cross (s.eV q w v δv j)) := by
  rw [← Sys.A_var hal hc h.par hq 0 v δv a δa j hj, SE3.actInv_act (s.oM_valid h.par hq j hj)]

theorem δA_world (h : s.Packed) (hal : s.Along sε q w dq) (hc : s.ConstS sε) (hq : s.At q) (v δv a δa : ℕ → K)
    {j : ℕ} (hj : j < s.n) :
    ((sε.oM (perturb q dq) j).act
      (sε.A ((0 : Motion K).map inl) (perturb q dq) (perturb v δv) (perturb a δa) j)).map snd
      = s.hA 0 q w v δv a δa j - (s.oV q v j).cross (s.eV q w v δv j) - (s.wA 0 q v a j).cross (s.oV q w j) := by
  have hM := s.oM_valid h.par hq j hj
  rw [(Sys.oM_moves hal h.par hq j hj).snd_act hM, Sys.A_fst hal hc h.par hq 0 v δv a δa j hj, SE3.act_add,
    Sys.A_var hal hc h.par hq 0 v δv a δa j hj, Motion.act_cross hM, Motion.cross_anti]
  unfold Sys.oV Sys.wA
  abel

/-! ## joints -/

/-- `getJointVelocityDerivatives` gives the derivatives of `getVelocity` in the frames `LOCAL` and `WORLD`. -/
theorem C52_velocity (h : s.Packed) (hal : s.Along sε q w dq) (hc : s.ConstS sε) (hq : s.At q)
    (hqε : sε.At (perturb q dq)) (d : Data K) (dε : Data K[ε]) (v δv a δa : ℕ → K) {j : ℕ} (j1 : 1 ≤ j) (hj : j < s.n) :
    let D := fun rf => getJointVelocityDerivatives s (computeForwardKinematicsDerivatives s d q v a) j rf
      (fun _ => 0, fun _ => 0)
    let vel := fun rf => getVelocity (forwardKinematicsA sε dε (perturb q dq) (perturb v δv) (perturb a δa)) j rf
    ∑ c ∈ range s.nv, (w c • (D .LOCAL).1 c + δv c • (D .LOCAL).2 c) = (vel .LOCAL).map snd ∧
    ∑ c ∈ range s.nv, (w c • (D .WORLD).1 c + δv c • (D .WORLD).2 c) = (vel .WORLD).map snd := by
  intro D vel
  have hd := (fkd_ok h d hq v a).toTvOk
  obtain ⟨e1, e2, -⟩ := fkε_at h hal hqε dε (perturb v δv) (perturb a δa) j1 hj
  constructor
  · rw [vel_sum h hq hj _ _ (fun i h1 hi k hk _ => (velDer_cols h hq hd j1 hj .LOCAL (by simp) h1 hi hk).1)
      (fun i h1 hi k hk _ => (velDer_cols h hq hd j1 hj .LOCAL (by simp) h1 hi hk).2)]
    simp only [vel, getVelocity, inFrame, e2]
    rw [δV_local h hal hc hq v δv hj, lastOf, Motion.zero_cross, sub_zero]
    rfl
  · rw [vel_sum h hq hj _ _ (fun i h1 hi k hk _ => (velDer_cols h hq hd j1 hj .WORLD (by simp) h1 hi hk).1)
      (fun i h1 hi k hk _ => (velDer_cols h hq hd j1 hj .WORLD (by simp) h1 hi hk).2)]
    simp only [vel, getVelocity, inFrame, e1, e2]
    rw [δV_world h hal hc hq v δv hj]
    rfl

/-- In `LOCAL_WORLD_ALIGNED` they are the derivatives of the velocity in `WORLD`, moved to the current position of the
joint. Missing: that is not the derivative of `getVelocity(LOCAL_WORLD_ALIGNED)`
(`C52_velocity_lwa_counterexample`). -/
theorem C52_velocity_lwa_partial (h : s.Packed) (hal : s.Along sε q w dq) (hc : s.ConstS sε) (hq : s.At q)
    (hqε : sε.At (perturb q dq)) (d : Data K) (dε : Data K[ε]) (v δv a δa : ℕ → K) {j : ℕ} (j1 : 1 ≤ j) (hj : j < s.n) :
    let D := getJointVelocityDerivatives s (computeForwardKinematicsDerivatives s d q v a) j .LOCAL_WORLD_ALIGNED
      (fun _ => 0, fun _ => 0)
    let δ := (getVelocity (forwardKinematicsA sε dε (perturb q dq) (perturb v δv) (perturb a δa)) j .WORLD).map snd
    ∑ c ∈ range s.nv, (w c • D.1 c + δv c • D.2 c) = ⟨δ.lin + δ.ang.cross (s.oM q j).trans, δ.ang⟩ := by
  intro D δ
  have hd := (fkd_ok h d hq v a).toTvOk
  obtain ⟨e1, e2, -⟩ := fkε_at h hal hqε dε (perturb v δv) (perturb a δa) j1 hj
  rw [vel_sum h hq hj _ _ (fun i h1 hi k hk _ => (velDer_cols h hq hd j1 hj .LOCAL_WORLD_ALIGNED (by simp) h1 hi hk).1)
      (fun i h1 hi k hk _ => (velDer_cols h hq hd j1 hj .LOCAL_WORLD_ALIGNED (by simp) h1 hi hk).2)]
  have eδ : δ = s.eV q w v δv j - (s.oV q v j).cross (s.oV q w j) := by
    simp only [δ, getVelocity, inFrame, e1, e2]
    exact δV_world h hal hc hq v δv hj
  change translateCol (s.oM q j) (s.eV q w v δv j - (s.oV q v j).cross (s.oV q w j)) .LOCAL_WORLD_ALIGNED = _
  rw [← eδ]
  exact (shiftLin_eq _ _).symm

/-- `getJointAccelerationDerivatives` gives the derivatives of `getAcceleration` in the frame `LOCAL`. -/
theorem C52_acceleration (h : s.Packed) (hal : s.Along sε q w dq) (hc : s.ConstS sε) (hq : s.At q)
    (hqε : sε.At (perturb q dq)) (d : Data K) (dε : Data K[ε]) (v δv a δa : ℕ → K) {j : ℕ} (j1 : 1 ≤ j) (hj : j < s.n) :
    let D := getJointAccelerationDerivatives s (computeForwardKinematicsDerivatives s d q v a) j .LOCAL AccDer.zero
    ∑ c ∈ range s.nv, (w c • D.a_dq c + δv c • D.a_dv c + δa c • D.a_da c)
      = (getAcceleration (forwardKinematicsA sε dε (perturb q dq) (perturb v δv) (perturb a δa)) j .LOCAL).map snd := by
  intro D
  have hd := fkd_ok h d hq v a
  obtain ⟨-, -, e3⟩ := fkε_at h hal hqε dε (perturb v δv) (perturb a δa) j1 hj
  rw [acc_sum h hq hj _ _ (fun i => if RF.LOCAL = .LOCAL ∨ s.par i = 0 then s.oV q v (s.par i) else s.oV q v i)
      (fun i h1 hi k hk _ => (accDer_cols h hq hd j1 hj .LOCAL h1 hi hk).2.1)
      (fun i h1 hi k hk _ => (accDer_cols h hq hd j1 hj .LOCAL h1 hi hk).2.2.1)
      (fun i h1 hi k hk _ => (accDer_cols h hq hd j1 hj .LOCAL h1 hi hk).2.2.2)]
  simp only [getAcceleration, inFrame, e3]
  rw [δA_local h hal hc hq v δv a δa hj, lastOf, Motion.zero_cross, sub_zero]
  simp only [true_or, if_true, sub_self, Motion.zero_cross, Motion.cross_zero, sum_const_zero, add_zero]
  rfl

/-- the error of `a_partial_dq` in the frames `WORLD` and `LOCAL_WORLD_ALIGNED` -/
noncomputable def Sys.accErr (s : Sys K) (q w v : ℕ → K) (j : ℕ) : Motion K :=
  ∑ i ∈ supp s.par s.n j, if s.par i = 0 then 0 else
    (s.oV q v (s.par i) - s.oV q v j).cross
      (((s.oM q i).act (s.jvel q v i)).cross ((s.oM q i).act (s.jvel q w i)))

theorem accDer_sum_rf (h : s.Packed) (hq : s.At q) (d : Data K) (v δv a δa : ℕ → K) {j : ℕ} (j1 : 1 ≤ j) (hj : j < s.n)
    {rf : RF} (hrf : rf ≠ .LOCAL) :
    let D := getJointAccelerationDerivatives s (computeForwardKinematicsDerivatives s d q v a) j rf AccDer.zero
    ∑ c ∈ range s.nv, (w c • D.a_dq c + δv c • D.a_dv c + δa c • D.a_da c)
      = translateLin (s.oM q j) rf (s.hA 0 q w v δv a δa j - (s.oV q v j).cross (s.eV q w v δv j)
        - (s.wA 0 q v a j).cross (s.oV q w j) + s.accErr q w v j) := by
  intro D
  have hd := fkd_ok h d hq v a
  rw [acc_sum h hq hj _ _ (fun i => if rf = .LOCAL ∨ s.par i = 0 then s.oV q v (s.par i) else s.oV q v i)
      (fun i h1 hi k hk _ => (accDer_cols h hq hd j1 hj rf h1 hi hk).2.1)
      (fun i h1 hi k hk _ => (accDer_cols h hq hd j1 hj rf h1 hi hk).2.2.1)
      (fun i h1 hi k hk _ => (accDer_cols h hq hd j1 hj rf h1 hi hk).2.2.2)]
  congr 1
  refine congrArg₂ (· + ·) (by cases rf <;> first | rfl | exact absurd rfl hrf) ?_
  unfold Sys.accErr
  apply sum_congr rfl
  intro i hi
  obtain ⟨⟨i1, hin⟩, -⟩ := mem_supp.1 hi
  by_cases e : s.par i = 0
  · rw [if_pos (Or.inr e), if_pos e, sub_self, Motion.zero_cross, Motion.cross_zero]
  · rw [if_neg (by simp [hrf, e]), if_neg e, Sys.oV_step' h.par hq v i1 hin, add_sub_cancel_right]
    rfl

/-- In the frames `WORLD` and `LOCAL_WORLD_ALIGNED` they are the derivatives of the acceleration in `WORLD` up to
`accErr`, which sums, over the joints that are not attached to the universe, a term in `(S v) × (S w)`. -/
theorem C52_acceleration_world_error (h : s.Packed) (hal : s.Along sε q w dq) (hc : s.ConstS sε) (hq : s.At q)
    (hqε : sε.At (perturb q dq)) (d : Data K) (dε : Data K[ε]) (v δv a δa : ℕ → K) {j : ℕ} (j1 : 1 ≤ j) (hj : j < s.n) :
    let D := fun rf => getJointAccelerationDerivatives s (computeForwardKinematicsDerivatives s d q v a) j rf AccDer.zero
    let sum := fun rf => ∑ c ∈ range s.nv, (w c • (D rf).a_dq c + δv c • (D rf).a_dv c + δa c • (D rf).a_da c)
    let δ := (getAcceleration (forwardKinematicsA sε dε (perturb q dq) (perturb v δv) (perturb a δa)) j .WORLD).map snd
      + s.accErr q w v j
    sum .WORLD = δ ∧
    sum .LOCAL_WORLD_ALIGNED = ⟨δ.lin + δ.ang.cross (s.oM q j).trans, δ.ang⟩ := by
  intro D sum δ
  obtain ⟨e1, -, e3⟩ := fkε_at h hal hqε dε (perturb v δv) (perturb a δa) j1 hj
  have eδ : δ = s.hA 0 q w v δv a δa j - (s.oV q v j).cross (s.eV q w v δv j)
        - (s.wA 0 q v a j).cross (s.oV q w j) + s.accErr q w v j := by
    simp only [δ, getAcceleration, inFrame, e1, e3]
    rw [δA_world h hal hc hq v δv a δa hj]
  constructor
  · refine (accDer_sum_rf h hq d v δv a δa j1 hj (by decide)).trans ?_
    rw [← eδ]; rfl
  · refine (accDer_sum_rf h hq d v δv a δa j1 hj (by decide)).trans ?_
    rw [← eδ]
    exact (shiftLin_eq _ _).symm

/-- Hence they are right when each joint that is not attached to the universe has one degree of freedom.
Missing: joints with several degrees of freedom (`C52_acceleration_world_counterexample`), and in
`LOCAL_WORLD_ALIGNED` the remark of `C52_velocity_lwa_partial`. -/
theorem C52_acceleration_world_partial (h : s.Packed) (hal : s.Along sε q w dq) (hc : s.ConstS sε) (hq : s.At q)
    (hqε : sε.At (perturb q dq)) (d : Data K) (dε : Data K[ε]) (v δv a δa : ℕ → K) {j : ℕ} (j1 : 1 ≤ j) (hj : j < s.n)
    (hdof : ∀ i, 1 ≤ i → i < s.n → anc s.par i j → s.par i ≠ 0 → s.jnv i ≤ 1) :
    let D := fun rf => getJointAccelerationDerivatives s (computeForwardKinematicsDerivatives s d q v a) j rf AccDer.zero
    let sum := fun rf => ∑ c ∈ range s.nv, (w c • (D rf).a_dq c + δv c • (D rf).a_dv c + δa c • (D rf).a_da c)
    let δ := (getAcceleration (forwardKinematicsA sε dε (perturb q dq) (perturb v δv) (perturb a δa)) j .WORLD).map snd
    sum .WORLD = δ ∧
    sum .LOCAL_WORLD_ALIGNED = ⟨δ.lin + δ.ang.cross (s.oM q j).trans, δ.ang⟩ := by
  have e : s.accErr q w v j = 0 := by
    unfold Sys.accErr
    apply sum_eq_zero
    intro i hi
    obtain ⟨⟨i1, hin⟩, ha⟩ := mem_supp.1 hi
    split
    · rfl
    · rename_i hz
      have hn := hdof i i1 hin ha hz
      have hM := s.oM_valid h.par hq i hin
      rw [← Motion.act_cross hM]
      have : (s.jvel q v i).cross (s.jvel q w i) = 0 := by
        unfold Sys.jvel comb
        rcases Nat.le_one_iff_eq_zero_or_eq_one.1 hn with e | e <;> rw [e]
        · simp [Motion.cross_zero]
        · simp only [sum_range_one]
          ext <;> simp [Motion.cross] <;> ring
      rw [this]
      simp [Motion.cross_zero]
  have := C52_acceleration_world_error h hal hc hq hqε d dε v δv a δa j1 hj
  rw [e] at this
  simpa only [add_zero] using this

/-- `getJointAccelerationDerivatives` also returns the `v_partial_dq` of `getJointVelocityDerivatives`, and its
`a_partial_da` is `v_partial_dv` (as the overload with five outputs assumes). -/
theorem C52_same_velocity (h : s.Packed) (hq : s.At q) (d : Data K) (v a : ℕ → K) {j : ℕ} (j1 : 1 ≤ j) (hj : j < s.n)
    (rf : RF) {c : ℕ} (hcn : c < s.nv) :
    let e := computeForwardKinematicsDerivatives s d q v a
    let D := getJointVelocityDerivatives s e j rf (fun _ => 0, fun _ => 0)
    let A := getJointAccelerationDerivatives s e j rf AccDer.zero
    A.v_dq c = D.1 c ∧ A.a_da c = D.2 c := by
  classical
  intro e D A
  have hd := fkd_ok h d hq v a
  obtain ⟨i, k, h1, hi, hk, rfl⟩ := h.cover hcn
  have a1 := accDer_cols h hq hd j1 hj rf h1 hi hk
  have a2 := velDer_cols h hq hd.toTvOk j1 hj rf (x := (fun _ => 0, fun _ => 0)) (by simp) h1 hi hk
  exact ⟨a1.1.trans a2.1.symm, a1.2.2.2.trans a2.2.symm⟩

/-! ## frames -/

/-- `getFrameVelocityDerivatives` gives the derivatives of `getFrameVelocity` in the frames `LOCAL` and `WORLD`; in
`LOCAL_WORLD_ALIGNED`, the derivatives of the velocity in `WORLD` moved to the current position of the frame. -/
theorem C52_frame_velocity (h : s.Packed) (hf : s.Full) (hal : s.Along sε q w dq) (hc : s.ConstS sε) (hq : s.At q)
    (hqε : sε.At (perturb q dq)) (d : Data K) (dε : Data K[ε]) (v δv a δa : ℕ → K) {j : ℕ} (j1 : 1 ≤ j) (hj : j < s.n)
    {P : SE3 K} (hP : P.Valid) :
    let D := fun rf => getFrameVelocityDerivatives s (computeForwardKinematicsDerivatives s d q v a) j P rf
      (fun _ => 0, fun _ => 0)
    let sum := fun rf => ∑ c ∈ range s.nv, (w c • (D rf).1 c + δv c • (D rf).2 c)
    let δ := fun rf => (getFrameVelocity (forwardKinematicsA sε dε (perturb q dq) (perturb v δv) (perturb a δa)) j
      (P.map inl) rf).map snd
    sum .LOCAL = δ .LOCAL ∧ sum .WORLD = δ .WORLD ∧
    sum .LOCAL_WORLD_ALIGNED = ⟨(δ .WORLD).lin + (δ .WORLD).ang.cross (s.oM q j * P).trans, (δ .WORLD).ang⟩ := by
  intro D sum δ
  have hd := (fkd_ok h d hq v a).toTvOk
  have hM := s.oM_valid h.par hq j hj
  obtain ⟨e1, e2, -⟩ := fkε_at h hal hqε dε (perturb v δv) (perturb a δa) j1 hj
  have key : ∀ rf, sum rf = translateLin (s.oM q j * P) rf
      (s.eV q w v δv j - (lastOf rf (s.oV q v j)).cross (s.oV q w j)) := by
    intro rf
    exact vel_sum h hq hj _ _
      (fun i h1 hi k hk _ => frameLoop_cols h hf hq hj (hd.pl j j1 hj).2.1 hP rf h1 hi hk
        (velDer_cols h hq hd j1 hj rf (by simp) h1 hi hk).1)
      (fun i h1 hi k hk _ => frameLoop_cols h hf hq hj (hd.pl j j1 hj).2.1 hP rf h1 hi hk
        (velDer_cols h hq hd j1 hj rf (by simp) h1 hi hk).2) w δv
  have ew : δ .WORLD = s.eV q w v δv j - (s.oV q v j).cross (s.oV q w j) := by
    simp only [δ, getFrameVelocity, inFrameAt, e1, e2]
    exact δV_world h hal hc hq v δv hj
  refine ⟨?_, ?_, ?_⟩
  · rw [key]
    simp only [δ, getFrameVelocity, inFrameAt, e2]
    rw [(SE3.Moves.const (X := P)).snd_actInv hP, δV_local h hal hc hq v δv hj, Motion.zero_cross, sub_zero, lastOf,
      Motion.zero_cross, sub_zero, ← SE3.mul_actInv hM hP]
    rfl
  · rw [key, ew]; rfl
  · rw [key, ew]; exact (shiftLin_eq _ _).symm

/-- `getFrameAccelerationDerivatives` gives the derivatives of `getFrameAcceleration` in the frame `LOCAL`. -/
theorem C52_frame_acceleration (h : s.Packed) (hf : s.Full) (hal : s.Along sε q w dq) (hc : s.ConstS sε) (hq : s.At q)
    (hqε : sε.At (perturb q dq)) (d : Data K) (dε : Data K[ε]) (v δv a δa : ℕ → K) {j : ℕ} (j1 : 1 ≤ j) (hj : j < s.n)
    {P : SE3 K} (hP : P.Valid) :
    let D := getFrameAccelerationDerivatives s (computeForwardKinematicsDerivatives s d q v a) j P .LOCAL AccDer.zero
    ∑ c ∈ range s.nv, (w c • D.a_dq c + δv c • D.a_dv c + δa c • D.a_da c)
      = (getFrameAcceleration (forwardKinematicsA sε dε (perturb q dq) (perturb v δv) (perturb a δa)) j
          (P.map inl) .LOCAL).map snd := by
  intro D
  have hd := fkd_ok h d hq v a
  have hM := s.oM_valid h.par hq j hj
  have hl := fun (i k : ℕ) (h1 : 1 ≤ i) (hi : i < s.n) (hk : k < s.jnv i) (X : ℕ → Motion K) (G : Motion K)
      [Decidable (anc s.par i j)] => frameLoop_cols h hf hq hj (d := computeForwardKinematicsDerivatives s d q v a)
        (hd.pl j j1 hj).2.1 hP .LOCAL (X := X) (G := G) h1 hi hk
  obtain ⟨-, -, e3⟩ := fkε_at h hal hqε dε (perturb v δv) (perturb a δa) j1 hj
  refine (acc_sum h hq hj _ _ (fun i => if RF.LOCAL = .LOCAL ∨ s.par i = 0 then s.oV q v (s.par i) else s.oV q v i)
      (fun i h1 hi k hk _ => hl i k h1 hi hk _ _ (accDer_cols h hq hd j1 hj .LOCAL h1 hi hk).2.1)
      (fun i h1 hi k hk _ => hl i k h1 hi hk _ _ (accDer_cols h hq hd j1 hj .LOCAL h1 hi hk).2.2.1)
      (fun i h1 hi k hk _ => hl i k h1 hi hk _ _ (accDer_cols h hq hd j1 hj .LOCAL h1 hi hk).2.2.2) w δv δa).trans ?_
  simp only [getFrameAcceleration, inFrameAt, e3]
  rw [(SE3.Moves.const (X := P)).snd_actInv hP, δA_local h hal hc hq v δv a δa hj, Motion.zero_cross, sub_zero, lastOf,
    Motion.zero_cross, sub_zero, ← SE3.mul_actInv hM hP]
  simp only [true_or, if_true, sub_self, Motion.zero_cross, Motion.cross_zero, sum_const_zero, add_zero]
  rfl

/-- In the other frames, up to `accErr`, as for joints. -/
theorem C52_frame_acceleration_world_error (h : s.Packed) (hf : s.Full) (hal : s.Along sε q w dq) (hc : s.ConstS sε)
    (hq : s.At q) (hqε : sε.At (perturb q dq)) (d : Data K) (dε : Data K[ε]) (v δv a δa : ℕ → K) {j : ℕ} (j1 : 1 ≤ j)
    (hj : j < s.n) {P : SE3 K} (hP : P.Valid) :
    let D := fun rf =>
      getFrameAccelerationDerivatives s (computeForwardKinematicsDerivatives s d q v a) j P rf AccDer.zero
    let sum := fun rf => ∑ c ∈ range s.nv, (w c • (D rf).a_dq c + δv c • (D rf).a_dv c + δa c • (D rf).a_da c)
    let δ := (getFrameAcceleration (forwardKinematicsA sε dε (perturb q dq) (perturb v δv) (perturb a δa)) j
        (P.map inl) .WORLD).map snd + s.accErr q w v j
    sum .WORLD = δ ∧
    sum .LOCAL_WORLD_ALIGNED = ⟨δ.lin + δ.ang.cross (s.oM q j * P).trans, δ.ang⟩ := by
  intro D sum δ
  have hd := fkd_ok h d hq v a
  obtain ⟨e1, -, e3⟩ := fkε_at h hal hqε dε (perturb v δv) (perturb a δa) j1 hj
  have eδ : δ = s.hA 0 q w v δv a δa j - (s.oV q v j).cross (s.eV q w v δv j)
        - (s.wA 0 q v a j).cross (s.oV q w j) + s.accErr q w v j := by
    simp only [δ, getFrameAcceleration, inFrameAt, e1, e3]
    rw [δA_world h hal hc hq v δv a δa hj]
  have key : ∀ rf, rf ≠ .LOCAL → sum rf = translateLin (s.oM q j * P) rf δ := by
    intro rf hrf
    have hl := fun (i k : ℕ) (h1 : 1 ≤ i) (hi : i < s.n) (hk : k < s.jnv i) (X : ℕ → Motion K) (G : Motion K)
      [Decidable (anc s.par i j)] => frameLoop_cols h hf hq hj (d := computeForwardKinematicsDerivatives s d q v a)
        (hd.pl j j1 hj).2.1 hP rf (X := X) (G := G) h1 hi hk
    refine (acc_sum h hq hj _ _ (fun i => if rf = .LOCAL ∨ s.par i = 0 then s.oV q v (s.par i) else s.oV q v i)
      (fun i h1 hi k hk _ => hl i k h1 hi hk _ _ (accDer_cols h hq hd j1 hj rf h1 hi hk).2.1)
      (fun i h1 hi k hk _ => hl i k h1 hi hk _ _ (accDer_cols h hq hd j1 hj rf h1 hi hk).2.2.1)
      (fun i h1 hi k hk _ => hl i k h1 hi hk _ _ (accDer_cols h hq hd j1 hj rf h1 hi hk).2.2.2) w δv δa).trans ?_
    rw [eδ]
    congr 1
    refine congrArg₂ (· + ·) (by cases rf <;> first | rfl | exact absurd rfl hrf) ?_
    unfold Sys.accErr
    apply sum_congr rfl
    intro i hi
    obtain ⟨⟨i1, hin⟩, -⟩ := mem_supp.1 hi
    by_cases e : s.par i = 0
    · rw [if_pos (Or.inr e), if_pos e, sub_self, Motion.zero_cross, Motion.cross_zero]
    · rw [if_neg (by simp [hrf, e]), if_neg e, Sys.oV_step' h.par hq v i1 hin, add_sub_cancel_right]
      rfl
  refine ⟨?_, ?_⟩
  · rw [key _ (by decide)]; rfl
  · rw [key _ (by decide)]; exact (shiftLin_eq _ _).symm

/-! ## points -/

theorem SE3.Moves.snd_rot {Mε : SE3 K[ε]} {M : SE3 K} {ν : Motion K} (h : Mε.Moves M ν) (x : V3 K[ε]) :
    (Mε.rot.mulVec x).map snd = M.rot.mulVec (ν.ang.cross (x.map fst) + x.map snd) := by
  have hb : Mε.rot.map fst = M.rot := congrArg SE3.rot h.base
  rw [M3.map_snd_mulVec, h.rot, hb, M3.mulVec_mulVec, M3.skew_mulVec, M3.mulVec_add]

theorem SE3.rot_lin {P : SE3 K} (hP : P.Valid) (m : Motion K) :
    P.rot.mulVec (P.actInv m).lin = m.lin + m.ang.cross P.trans := by
  have : (P.actInv m).lin = P.rot.tr.mulVec (m.lin + m.ang.cross P.trans) := (rot_tr_lin P m).symm
  rw [this, M3.IsRot.mulVec_tr_mulVec hP]

theorem SE3.rot_ang {P : SE3 K} (hP : P.Valid) (m : Motion K) : P.rot.mulVec (P.actInv m).ang = m.ang := by
  unfold SE3.actInv
  rw [M3.IsRot.mulVec_tr_mulVec hP]

/-- a velocity aligned with the world is the local one, rotated -/
theorem frame_lwa {O P : SE3 K} (hP : P.Valid) (m : Motion K) :
    (inFrameAt O P m .LOCAL_WORLD_ALIGNED).lin = (O * P).rot.mulVec (inFrameAt O P m .LOCAL).lin ∧
    (inFrameAt O P m .LOCAL_WORLD_ALIGNED).ang = (O * P).rot.mulVec (inFrameAt O P m .LOCAL).ang := by
  simp only [inFrameAt]
  rw [SE3.mul_rot, M3.mulVec_mulVec, M3.mulVec_mulVec, SE3.rot_lin hP, SE3.rot_ang hP]
  exact ⟨rfl, rfl⟩

theorem inl_valid {P : SE3 K} (hP : P.Valid) : (P.map (inl : K → K[ε])).Valid := by
  have e1 : (P.rot.map (inl : K → K[ε])).tr * P.rot.map inl = (P.rot.tr * P.rot).map inl := by
    ext <;> simp [M3.map, M3.tr]
  have e2 : (P.rot.map (inl : K → K[ε])).det = inl P.rot.det := by
    simp [M3.map, M3.det]
  refine ⟨?_, ?_⟩
  · refine e1.trans ?_
    rw [M3.IsRot.tr_mul hP]
    ext <;> simp [M3.map]
  · refine e2.trans ?_
    rw [M3.IsRot.det hP]
    rfl

section point
variable (h : s.Packed) (hal : s.Along sε q w dq) (hc : s.ConstS sε) (hq : s.At q) (v δv a δa : ℕ → K) {j : ℕ}
  (hj : j < s.n) {P : SE3 K} (hP : P.Valid)
include h hal hc hq hj hP

theorem pt_vel_snd : ((P.map (inl : K → K[ε])).actInv (sε.V (perturb q dq) (perturb v δv) j)).map snd
    = (s.oM q j * P).actInv (s.eV q w v δv j) := by
  rw [(SE3.Moves.const (X := P)).snd_actInv hP, δV_local h hal hc hq v δv hj, Motion.zero_cross, sub_zero,
    ← SE3.mul_actInv (s.oM_valid h.par hq j hj) hP]

theorem pt_acc_snd : ((P.map (inl : K → K[ε])).actInv
      (sε.A ((0 : Motion K).map inl) (perturb q dq) (perturb v δv) (perturb a δa) j)).map snd
    = (s.oM q j * P).actInv (s.hA 0 q w v δv a δa j - (s.oV q v j).cross (s.eV q w v δv j)) := by
  rw [(SE3.Moves.const (X := P)).snd_actInv hP, δA_local h hal hc hq v δv a δa hj, Motion.zero_cross, sub_zero,
    ← SE3.mul_actInv (s.oM_valid h.par hq j hj) hP]

theorem pt_acc_fst : ((P.map (inl : K → K[ε])).actInv
      (sε.A ((0 : Motion K).map inl) (perturb q dq) (perturb v δv) (perturb a δa) j)).map fst
    = (s.oM q j * P).actInv (s.wA 0 q v a j) := by
  have hM := s.oM_valid h.par hq j hj
  rw [SE3.map_fst_actInv (SE3.Moves.const (X := P)).base, Sys.A_fst hal hc h.par hq 0 v δv a δa j hj, SE3.mul_actInv hM hP]
  unfold Sys.wA
  rw [SE3.actInv_act hM]

omit hc in
theorem pt_vel_fst : ((P.map (inl : K → K[ε])).actInv (sε.V (perturb q dq) (perturb v δv) j)).map fst
    = (s.oM q j * P).actInv (s.oV q v j) := by
  have hM := s.oM_valid h.par hq j hj
  rw [SE3.map_fst_actInv (SE3.Moves.const (X := P)).base, Sys.V_fst hal h.par hq v δv j hj, SE3.mul_actInv hM hP]
  unfold Sys.oV
  rw [SE3.actInv_act hM]

omit hc in
/-- how a vector seen from the point turns with it -/
theorem pt_rot (x : V3 K[ε]) : ((sε.oM (perturb q dq) j * P.map inl).rot.mulVec x).map snd
    = (s.oM q j * P).rot.mulVec (x.map snd + ((s.oM q j * P).actInv (s.oV q w j)).ang.cross (x.map fst)) := by
  have hM := s.oM_valid h.par hq j hj
  have hm := (Sys.oM_moves hal h.par hq j hj).mul (SE3.Moves.const (X := P)) hP
  have e5 : P.actInv (s.V q w j) = (s.oM q j * P).actInv (s.oV q w j) := by
    rw [SE3.mul_actInv hM hP]; unfold Sys.oV; rw [SE3.actInv_act hM]
  rw [hm.snd_rot, zero_add, e5, add_comm]

end point

/-- the reference frames the point functions accept -/
def pointRF (lwa : Bool) : RF := if lwa then .LOCAL_WORLD_ALIGNED else .LOCAL

/-- `getPointVelocityDerivatives` gives the derivatives of the linear velocity of the point (the linear part of
`getFrameVelocity`), in both frames it accepts. -/
theorem C52_point_velocity (h : s.Packed) (hal : s.Along sε q w dq) (hc : s.ConstS sε) (hq : s.At q)
    (hqε : sε.At (perturb q dq)) (d : Data K) (dε : Data K[ε]) (v δv a δa : ℕ → K) {j : ℕ} (j1 : 1 ≤ j) (hj : j < s.n)
    {P : SE3 K} (hP : P.Valid) (lwa : Bool) :
    let D := getPointVelocityDerivatives s (computeForwardKinematicsDerivatives s d q v a) j P lwa (fun _ => 0, fun _ => 0)
    ∑ c ∈ range s.nv, (w c • D.1 c + δv c • D.2 c)
      = ((getFrameVelocity (forwardKinematicsA sε dε (perturb q dq) (perturb v δv) (perturb a δa)) j
          (P.map inl) (pointRF lwa)).map snd).lin := by
  intro D
  have hd := (fkd_ok h d hq v a).toTvOk
  have hM := s.oM_valid h.par hq j hj
  have eM := (hd.pl j j1 hj).2.1
  have eV := hd.ov j j1 hj
  obtain ⟨e1, e2, -⟩ := fkε_at h hal hqε dε (perturb v δv) (perturb a δa) j1 hj
  have hcol := fun (i k : ℕ) (h1 : 1 ≤ i) (hi : i < s.n) (hk : k < s.jnv i) [Decidable (anc s.par i j)] =>
    pointVel_cols h hq hd hj (hM.mul hP) ((s.oM q j * P).actInv (s.oV q v j)) lwa
      (x := (fun _ => 0, fun _ => 0)) (by simp) h1 hi hk
  have key := vel_sum' h hq hj _ _ (fun i h1 hi k hk _ => (hcol i k h1 hi hk).1)
    (fun i h1 hi k hk _ => (hcol i k h1 hi hk).2) w δv
  simp only [D, getPointVelocityDerivatives, eM, eV]
  rw [key]
  have e3 : V3.map snd ((P.map (inl : K → K[ε])).actInv (sε.V (perturb q dq) (perturb v δv) j)).lin
      = ((s.oM q j * P).actInv (s.eV q w v δv j)).lin := congrArg Motion.lin (pt_vel_snd h hal hc hq v δv hj hP)
  have e4 : V3.map fst ((P.map (inl : K → K[ε])).actInv (sε.V (perturb q dq) (perturb v δv) j)).lin
      = ((s.oM q j * P).actInv (s.oV q v j)).lin := congrArg Motion.lin (pt_vel_fst h hal hq v δv hj hP)
  cases lwa
  · simp only [pointRF, Bool.false_eq_true, if_false, getFrameVelocity, inFrameAt, e2]
    rw [LinearMap.zero_apply, add_zero]
    exact e3.symm
  · simp only [pointRF, if_true, getFrameVelocity, e1, e2]
    change _ = V3.map snd (inFrameAt _ _ _ _).lin
    rw [(frame_lwa (inl_valid hP) _).1, pt_rot h hal hq hj hP]
    simp only [inFrameAt]
    rw [e3, e4, M3.mulVec_add]
    rfl

/-- the classical acceleration aligned with the world is the local one, rotated -/
theorem frameClassical_lwa {O P : SE3 K} (hO : O.Valid) (hP : P.Valid) (v a : Motion K) :
    (inFrameAt O P a .LOCAL_WORLD_ALIGNED).lin
      + (inFrameAt O P v .LOCAL_WORLD_ALIGNED).ang.cross (inFrameAt O P v .LOCAL_WORLD_ALIGNED).lin
    = (O * P).rot.mulVec ((P.actInv a).lin + (P.actInv v).ang.cross (P.actInv v).lin) := by
  have hOP : (O * P).rot.IsRot := hO.mul hP
  rw [(frame_lwa hP a).1, (frame_lwa hP v).1, (frame_lwa hP v).2, M3.mulVec_add, hOP.mulVec_cross]
  rfl

/-- `getPointClassicAccelerationDerivatives` gives the derivatives of the classical acceleration of the point (the
linear part of `getFrameClassicalAcceleration`), in both frames it accepts. -/
theorem C52_point_acceleration (h : s.Packed) (hal : s.Along sε q w dq) (hc : s.ConstS sε) (hq : s.At q)
    (hqε : sε.At (perturb q dq)) (d : Data K) (dε : Data K[ε]) (v δv a δa : ℕ → K) {j : ℕ} (j1 : 1 ≤ j) (hj : j < s.n)
    {P : SE3 K} (hP : P.Valid) (lwa : Bool) :
    let D := getPointClassicAccelerationDerivatives s (computeForwardKinematicsDerivatives s d q v a) j P lwa PtAccDer.zero
    let r := forwardKinematicsA sε dε (perturb q dq) (perturb v δv) (perturb a δa)
    ∑ c ∈ range s.nv, (w c • D.a_dq c + δv c • D.a_dv c + δa c • D.a_da c)
      = ((getFrameClassicalAcceleration r j (P.map inl) (pointRF lwa)).map snd).lin ∧
    ∑ c ∈ range s.nv, (w c • D.v_dq c + δv c • D.a_da c)
      = ((getFrameVelocity r j (P.map inl) (pointRF lwa)).map snd).lin := by
  intro D r
  have hd := fkd_ok h d hq v a
  have hM := s.oM_valid h.par hq j hj
  have eM := (hd.pl j j1 hj).2.1
  have eV := hd.ov j j1 hj
  have eA := hd.oa j j1 hj
  have hO := hM.mul hP
  obtain ⟨e1, e2, e3⟩ := fkε_at h hal hqε dε (perturb v δv) (perturb a δa) j1 hj
  set O := s.oM q j * P with eO
  set vp := O.actInv (s.oV q v j) with evp
  set c0 := (O.actInv (s.wA 0 q v a j)).lin + vp.ang.cross vp.lin with ec0
  have hcol := fun (i k : ℕ) (h1 : 1 ≤ i) (hi : i < s.n) (hk : k < s.jnv i) [Decidable (anc s.par i j)] =>
    pointAcc_cols h hq hd hj hO evp c0 lwa h1 hi hk
  have keyv := vel_sum' h hq hj _ _ (fun i h1 hi k hk _ => (hcol i k h1 hi hk).1)
    (fun i h1 hi k hk _ => (hcol i k h1 hi hk).2.2.2) w δv
  have keya := acc_sum' h hq hj _ _ _ (fun i h1 hi k hk _ => (hcol i k h1 hi hk).2.1)
    (fun i h1 hi k hk _ => (hcol i k h1 hi hk).2.2.1)
    (fun i h1 hi k hk _ => (hcol i k h1 hi hk).2.2.2) w δv δa
  have hvε : (sε.oM (perturb q dq) j).Valid :=
    sε.oM_valid (by rw [hal.par, hal.n]; exact h.par) hqε j (by rw [hal.n]; exact hj)
  simp only [D, r, getPointClassicAccelerationDerivatives, eM, eV, eA]
  rw [keyv, keya]
  have l3 : V3.map snd ((P.map (inl : K → K[ε])).actInv (sε.V (perturb q dq) (perturb v δv) j)).lin
      = (O.actInv (s.eV q w v δv j)).lin := congrArg Motion.lin (pt_vel_snd h hal hc hq v δv hj hP)
  have l4 : V3.map fst ((P.map (inl : K → K[ε])).actInv (sε.V (perturb q dq) (perturb v δv) j)).lin
      = vp.lin := congrArg Motion.lin (pt_vel_fst h hal hq v δv hj hP)
  have g3 : V3.map snd ((P.map (inl : K → K[ε])).actInv (sε.V (perturb q dq) (perturb v δv) j)).ang
      = (O.actInv (s.eV q w v δv j)).ang := congrArg Motion.ang (pt_vel_snd h hal hc hq v δv hj hP)
  have g4 : V3.map fst ((P.map (inl : K → K[ε])).actInv (sε.V (perturb q dq) (perturb v δv) j)).ang
      = vp.ang := congrArg Motion.ang (pt_vel_fst h hal hq v δv hj hP)
  have a3 : V3.map snd ((P.map (inl : K → K[ε])).actInv
        (sε.A ((0 : Motion K).map inl) (perturb q dq) (perturb v δv) (perturb a δa) j)).lin
      = (O.actInv (s.hA 0 q w v δv a δa j - (s.oV q v j).cross (s.eV q w v δv j))).lin :=
    congrArg Motion.lin (pt_acc_snd h hal hc hq v δv a δa hj hP)
  have a4 : V3.map fst ((P.map (inl : K → K[ε])).actInv
        (sε.A ((0 : Motion K).map inl) (perturb q dq) (perturb v δv) (perturb a δa) j)).lin
      = (O.actInv (s.wA 0 q v a j)).lin := congrArg Motion.lin (pt_acc_fst h hal hc hq v δv a δa hj hP)
  set Aε := sε.A ((0 : Motion K).map inl) (perturb q dq) (perturb v δv) (perturb a δa) j
  set Vε := sε.V (perturb q dq) (perturb v δv) j
  have csnd : V3.map snd (((P.map (inl : K → K[ε])).actInv Aε).lin
        + ((P.map (inl : K → K[ε])).actInv Vε).ang.cross ((P.map (inl : K → K[ε])).actInv Vε).lin)
      = linIn O (s.hA 0 q w v δv a δa j - (s.oV q v j).cross (s.eV q w v δv j)) + wxv O vp (s.eV q w v δv j) := by
    rw [V3.map_snd_add, V3.map_snd_cross, a3, l3, l4, g3, g4]
    change _ = (O.actInv _).lin + (vp.ang.cross _ - vp.lin.cross _)
    congr 1
    generalize (O.actInv (s.eV q w v δv j)) = E
    ext <;> simp <;> ring
  have cfst : V3.map fst (((P.map (inl : K → K[ε])).actInv Aε).lin
        + ((P.map (inl : K → K[ε])).actInv Vε).ang.cross ((P.map (inl : K → K[ε])).actInv Vε).lin) = c0 := by
    rw [V3.map_fst_add, V3.map_fst_cross, a4, l4, g4]
  cases lwa
  · simp only [pointRF, Bool.false_eq_true, if_false, getFrameClassicalAcceleration, getFrameVelocity,
      getFrameAcceleration, inFrameAt, e2, e3]
    rw [LinearMap.zero_apply, add_zero, add_zero]
    exact ⟨csnd.symm, l3.symm⟩
  · simp only [pointRF, if_true, getFrameClassicalAcceleration, getFrameVelocity, getFrameAcceleration, e1, e2, e3]
    constructor
    · change _ = V3.map snd ((inFrameAt _ _ _ _).lin + (inFrameAt _ _ _ _).ang.cross (inFrameAt _ _ _ _).lin)
      rw [frameClassical_lwa hvε (inl_valid hP), pt_rot h hal hq hj hP, csnd, cfst, M3.mulVec_add, M3.mulVec_add]
      rfl
    · change _ = V3.map snd (inFrameAt _ _ _ _).lin
      rw [(frame_lwa (inl_valid hP) _).1, pt_rot h hal hq hj hP]
      simp only [inFrameAt]
      rw [l3, l4, M3.mulVec_add]
      rfl

/-! ## What the functions do not do -/

namespace Ex
theorem sysA_constS : sysA.ConstS sysAε := by
  refine ⟨fun i h1 hi k hk x => ?_, fun i h1 hi q v => ?_, fun i h1 hi q v => ?_⟩
  · change i < 5 at hi
    interval_cases i
    · have : k < 1 := hk
      interval_cases k; rfl
    · have : k < 1 := hk
      interval_cases k; rfl
    · have : k < 3 := hk
      interval_cases k <;> rfl
    · have : k < 1 := hk
      interval_cases k; rfl
  · change i < 5 at hi
    interval_cases i <;> rfl
  · change i < 5 at hi
    interval_cases i <;> rfl

theorem sysAε_at : sysAε.At (perturb qA dqA) := by
  refine ⟨fun i _ _ => inl_valid (sysA_at.pl i ‹_› ‹_›), fun i h1 hi => ?_⟩
  change i < 5 at hi
  interval_cases i
  · exact jRevolute_ok _ _
  · exact jPrismatic_ok _ _
  · exact jSpherical_ok (TrivSqZeroExt.ext (by decide +kernel) (by decide +kernel))
  · exact jRevoluteUnaligned_ok (TrivSqZeroExt.ext (by decide +kernel) (by decide +kernel)) _

/-- velocity, acceleration and their variations in the examples -/
def wA' : ℕ → ℚ := fun k => (k : ℚ) * k - 3
end Ex

set_option maxRecDepth 100000 in
/-- `getJointAccelerationDerivatives` in `WORLD` is not the derivative of the acceleration when a joint with several
degrees of freedom (here a spherical joint) is not attached to the universe. -/
theorem C52_acceleration_world_counterexample :
    let D := getJointAccelerationDerivatives Ex.sysA
      (computeForwardKinematicsDerivatives Ex.sysA Data.zero Ex.qA Ex.wA' (fun _ => 0)) 3 .WORLD AccDer.zero
    Ex.sysA.Packed ∧ Ex.sysA.Full ∧ Ex.sysA.At Ex.qA ∧ Ex.sysA.Along Ex.sysAε Ex.qA Ex.vA Ex.dqA ∧
    Ex.sysA.ConstS Ex.sysAε ∧ Ex.sysAε.At (perturb Ex.qA Ex.dqA) ∧
    ∑ c ∈ range Ex.sysA.nv, Ex.vA c • D.a_dq c
      ≠ (getAcceleration (forwardKinematicsA Ex.sysAε Data.zero (perturb Ex.qA Ex.dqA) (perturb Ex.wA' (fun _ => 0))
          (perturb (fun _ => 0) (fun _ => 0))) 3 .WORLD).map snd := by
  refine ⟨Ex.sysA_packed, Ex.sysA_full, Ex.sysA_at, Ex.sysA_along, Ex.sysA_constS, Ex.sysAε_at, fun hc => ?_⟩
  have := congrArg (fun m : Motion ℚ => m.ang.z) hc
  revert this
  decide +kernel

set_option maxRecDepth 100000 in
/-- `getJointVelocityDerivatives` in `LOCAL_WORLD_ALIGNED` is the derivative of the velocity in `WORLD`, read at the
origin of the joint; it is not the derivative of `getVelocity` in `LOCAL_WORLD_ALIGNED`. -/
theorem C52_velocity_lwa_counterexample :
    let D := getJointVelocityDerivatives Ex.sysA
      (computeForwardKinematicsDerivatives Ex.sysA Data.zero Ex.qA Ex.wA' (fun _ => 0)) 3 .LOCAL_WORLD_ALIGNED
      (fun _ => 0, fun _ => 0)
    Ex.sysA.Packed ∧ Ex.sysA.Full ∧ Ex.sysA.At Ex.qA ∧ Ex.sysA.Along Ex.sysAε Ex.qA Ex.vA Ex.dqA ∧
    Ex.sysA.ConstS Ex.sysAε ∧ Ex.sysAε.At (perturb Ex.qA Ex.dqA) ∧
    ∑ c ∈ range Ex.sysA.nv, Ex.vA c • D.1 c
      ≠ (getVelocity (forwardKinematicsA Ex.sysAε Data.zero (perturb Ex.qA Ex.dqA) (perturb Ex.wA' (fun _ => 0))
          (perturb (fun _ => 0) (fun _ => 0))) 3 .LOCAL_WORLD_ALIGNED).map snd := by
  refine ⟨Ex.sysA_packed, Ex.sysA_full, Ex.sysA_at, Ex.sysA_along, Ex.sysA_constS, Ex.sysAε_at, fun hc => ?_⟩
  have := congrArg (fun m : Motion ℚ => m.lin.x) hc
  revert this
  decide +kernel

set_option maxRecDepth 100000 in
/-- In `LOCAL`, `getJointVelocityDerivatives` and `getJointAccelerationDerivatives` do not write the configuration
columns of joints attached to the universe: what the caller left in the matrix stays there. -/
theorem C52_stale_counterexample (x : Motion ℚ) :
    (getJointVelocityDerivatives Ex.sysA
      (computeForwardKinematicsDerivatives Ex.sysA Data.zero Ex.qA Ex.wA' (fun _ => 0)) 4 .LOCAL
      (fun _ => x, fun _ => 0)).1 0 = x ∧
    (getJointAccelerationDerivatives Ex.sysA
      (computeForwardKinematicsDerivatives Ex.sysA Data.zero Ex.qA Ex.wA' (fun _ => 0)) 4 .LOCAL
      ⟨fun _ => 0, fun _ => x, fun _ => 0, fun _ => 0⟩).a_dq 0 = x := ⟨rfl, rfl⟩

/-- one `JointModelSphericalZYX`, over dual numbers -/
def Ex.sysZε : Sys ℚ[ε] where
  n := 2
  par _ := 0
  pl _ := (1 : SE3 ℚ).map inl
  Y _ := Ex.iA.map inl
  jt _ := jSphericalZYX
  iq _ := 0
  iv _ := 0
  nv := 3
  arm _ := inl 0
  grav := (0 : Motion ℚ).map inl

theorem Ex.sysZ_along (q w : ℕ → ℚ) : Ex.sysZ.Along Ex.sysZε q w w := by
  refine ⟨rfl, rfl, fun _ => rfl, fun _ => rfl, rfl, rfl, rfl, fun _ => rfl, fun _ => rfl, rfl, fun i h1 hi => ?_⟩
  exact jSphericalZYX_kin _ _

set_option maxRecDepth 100000 in
/-- With a `JointModelSphericalZYX`, whose motion subspace depends on the configuration, `getJointVelocityDerivatives`
is not the derivative of the velocity, in any frame; the condition `Sys.ConstS` cannot be dropped. -/
theorem C52_constS_counterexample :
    let q : ℕ → ℚ := fun k => if k = 1 then 1 else 0
    let v : ℕ → ℚ := fun _ => 1
    let D := getJointVelocityDerivatives Ex.sysZ
      (computeForwardKinematicsDerivatives Ex.sysZ Data.zero q v (fun _ => 0)) 1 .LOCAL (fun _ => 0, fun _ => 0)
    Ex.sysZ.Packed ∧ Ex.sysZ.Full ∧ Ex.sysZ.At q ∧ Ex.sysZ.Along Ex.sysZε q v v ∧
    ∑ c ∈ range Ex.sysZ.nv, v c • D.1 c
      ≠ (getVelocity (forwardKinematicsA Ex.sysZε Data.zero (perturb q v) (perturb v (fun _ => 0))
          (perturb (fun _ => 0) (fun _ => 0))) 1 .LOCAL).map snd := by
  intro q v D
  obtain ⟨a, b, c⟩ := Ex.sysZ_ok
  refine ⟨a, b, c q, Ex.sysZ_along q v, fun hc => ?_⟩
  have := congrArg (fun m : Motion ℚ => m.ang.z) hc
  revert this
  decide +kernel

/-! ## The hypotheses of the theorems above are met -/

example := C52_velocity Ex.sysA_packed Ex.sysA_along Ex.sysA_constS Ex.sysA_at Ex.sysAε_at Data.zero Data.zero
  Ex.wA' Ex.vA Ex.vA Ex.wA' (j := 4) (by decide) (by decide)
example := C52_velocity_lwa_partial Ex.sysA_packed Ex.sysA_along Ex.sysA_constS Ex.sysA_at Ex.sysAε_at Data.zero Data.zero
  Ex.wA' Ex.vA Ex.vA Ex.wA' (j := 4) (by decide) (by decide)
example := C52_acceleration Ex.sysA_packed Ex.sysA_along Ex.sysA_constS Ex.sysA_at Ex.sysAε_at Data.zero Data.zero
  Ex.wA' Ex.vA Ex.vA Ex.wA' (j := 4) (by decide) (by decide)
example := C52_acceleration_world_error Ex.sysA_packed Ex.sysA_along Ex.sysA_constS Ex.sysA_at Ex.sysAε_at Data.zero Data.zero
  Ex.wA' Ex.vA Ex.vA Ex.wA' (j := 4) (by decide) (by decide)
example := C52_acceleration_world_partial Ex.sysA_packed Ex.sysA_along Ex.sysA_constS Ex.sysA_at Ex.sysAε_at Data.zero Data.zero
  Ex.wA' Ex.vA Ex.vA Ex.wA' (j := 2) (by decide) (by decide) (fun i h1 hi ha _ => by
    change i < 5 at hi
    interval_cases i
    · decide
    · decide
    · exact absurd (anc_le Ex.sysA_par 2 (by decide) ha) (by decide)
    · exact absurd (anc_le Ex.sysA_par 2 (by decide) ha) (by decide))
example := C52_frame_velocity Ex.sysA_packed Ex.sysA_full Ex.sysA_along Ex.sysA_constS Ex.sysA_at Ex.sysAε_at Data.zero
  Data.zero Ex.wA' Ex.vA Ex.vA Ex.wA' (j := 4) (by decide) (by decide) Ex.mB_valid
example := C52_frame_acceleration Ex.sysA_packed Ex.sysA_full Ex.sysA_along Ex.sysA_constS Ex.sysA_at Ex.sysAε_at Data.zero
  Data.zero Ex.wA' Ex.vA Ex.vA Ex.wA' (j := 4) (by decide) (by decide) Ex.mB_valid
example := C52_point_velocity Ex.sysA_packed Ex.sysA_along Ex.sysA_constS Ex.sysA_at Ex.sysAε_at Data.zero
  Data.zero Ex.wA' Ex.vA Ex.vA Ex.wA' (j := 4) (by decide) (by decide) Ex.mB_valid true
example := C52_point_acceleration Ex.sysA_packed Ex.sysA_along Ex.sysA_constS Ex.sysA_at Ex.sysAε_at Data.zero
  Data.zero Ex.wA' Ex.vA Ex.vA Ex.wA' (j := 4) (by decide) (by decide) Ex.mB_valid true

end Pin
