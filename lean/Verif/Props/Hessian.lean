import Verif.Algo.HessianLemmas
import Verif.Props.KinDerivatives

/-!
# C67: kinematic Hessians

Slice `r` of the tensor returned by `getJointKinematicHessian` is the derivative of the Jacobian returned by
`getJointJacobian` with respect to the `r`-th coordinate of the joint velocity: contracted with a direction `w`, the
tensor is the derivative of the Jacobian when the configuration moves with the joint velocity `w`. The derivative is
read on the Jacobian computed by the same code over dual numbers, as in C52 (`Sys.Along`, `Sys.ConstS`).

`HTab.Ok` says what the index tables mean. The output is passed zero-initialised, as the documentation asks; what
`data.kinematic_hessians` holds before the call (`H0`) is arbitrary.
-/

namespace Pin
open Finset DualNumber TrivSqZeroExt
universe u
variable {K : Type u} [CommRing K] {s : Sys K} {sε : Sys K[ε]} {q w dq : ℕ → K} {T : HTab}

/-- the tensor a caller obtains for joint `j` at `q` -/
def hessianAt (s : Sys K) (T : HTab) (d : Data K) (H0 : Hess K) (q : ℕ → K) (j : ℕ) (rf : RF) : Hess K :=
  let e := computeJointJacobians s d q
  getJointKinematicHessian s T e (computeJointKinematicHessians s T e.J H0) j rf (fun _ _ => 0)

/-- derivative of column `c` of the Jacobian of joint `j` when `q` moves with the velocity `dq` -/
def jacobianVar (sε : Sys K[ε]) (dε : Data K[ε]) (q dq : ℕ → K) (j : ℕ) (rf : RF) (c : ℕ) : Motion K :=
  (getJointJacobian sε (computeJointJacobians sε dε (perturb q dq)) j rf (fun _ => 0) c).map snd

/-! ## the derivative in closed form -/

theorem packed_along (h : s.Packed) (hs : s.Along sε q w dq) : sε.Packed := by
  refine ⟨by rw [hs.par, hs.n]; exact h.par, fun i h1 hi => ?_, ?_⟩
  · rw [hs.iv, h.iv i h1 (by rw [← hs.n]; exact hi)]
    exact sum_congr rfl fun j _ => (hs.jnv j).symm
  · rw [hs.nv, h.nv, hs.n]
    exact sum_congr rfl fun j _ => (hs.jnv j).symm

theorem full_along (hf : s.Full) (hs : s.Along sε q w dq) : sε.Full := by
  intro i h1 hi
  rw [hs.jnv]
  exact hf i h1 (by rw [← hs.n]; exact hi)

theorem jacobianVar_at (h : s.Packed) (hf : s.Full) (hal : s.Along sε q w dq) (dε : Data K[ε]) {j : ℕ} (j1 : 1 ≤ j)
    (hj : j < s.n) (rf : RF) {i k : ℕ} (h1 : 1 ≤ i) (hi : i < s.n) (hk : k < s.jnv i) [Decidable (anc s.par i j)] :
    jacobianVar sε dε q dq j rf (s.iv i + k)
      = if anc s.par i j then
          (translateCol (sε.oM (perturb q dq) j) (sε.Jc (perturb q dq) i k) rf).map snd else 0 := by
  have hε := packed_along h hal
  have hfε := full_along hf hal
  have hp := hal.par
  have hjε : j < sε.n := by rw [hal.n]; exact hj
  have hiε : i < sε.n := by rw [hal.n]; exact hi
  have hkε : k < sε.jnv i := by rw [hal.jnv]; exact hk
  obtain ⟨p1, p2⟩ := jac_ok hε dε (perturb q dq)
  have : Decidable (anc sε.par i j) := by rw [hp]; infer_instance
  unfold jacobianVar getJointJacobian
  rw [← hal.iv, translate_at hε hfε hjε rf _ _ _ h1 hiε hkε, p2 i h1 hiε k hkε, (p1 j j1 hjε).2.1]
  by_cases e : anc s.par i j
  · rw [if_pos e, if_pos (by rw [hp]; exact e)]
  · rw [if_neg e, if_neg (by rw [hp]; exact e)]
    ext <;> simp [Motion.map, V3.map]

section der
variable (h : s.Packed) (hal : s.Along sε q w dq) (hc : s.ConstS sε) (hq : s.At q) {i k j : ℕ} (h1 : 1 ≤ i)
  (hi : i < s.n) (hk : k < s.jnv i) (hj : j < s.n)
include h hal hq h1 hi hk

theorem Jc_fst : (sε.Jc (perturb q dq) i k).map fst = s.Jc q i k := by
  have hm := Sys.oM_moves hal h.par hq i hi
  unfold Sys.Jc
  rw [← Sys.S_perturb hal h1 hi hk, ← hm.base]
  ext <;> simp [SE3.act, Motion.map, SE3.map, M3.map, V3.map, M3.mulVec, V3.cross]

include hc in
theorem Jc_snd : (sε.Jc (perturb q dq) i k).map snd = (s.oV q w i).cross (s.Jc q i k) := by
  have hm := Sys.oM_moves hal h.par hq i hi
  have hv := s.oM_valid h.par hq i hi
  unfold Sys.oV Sys.Jc
  rw [hm.snd_act hv, hc.S i h1 hi k hk, add_zero, Sys.S_perturb hal h1 hi hk, ← Motion.act_cross hv]

include hc in
theorem jac_var_world :
    (translateCol (sε.oM (perturb q dq) j) (sε.Jc (perturb q dq) i k) .WORLD).map snd
      = (s.oV q w i).cross (s.Jc q i k) := Jc_snd h hal hc hq h1 hi hk

include hc hj in
theorem jac_var_lwa :
    (translateCol (sε.oM (perturb q dq) j) (sε.Jc (perturb q dq) i k) .LOCAL_WORLD_ALIGNED).map snd
      = translateCol (s.oM q j) ((s.oV q w i).cross (s.Jc q i k)) .LOCAL_WORLD_ALIGNED
        - ⟨(translateCol (s.oM q j) (s.oV q w j) .LOCAL_WORLD_ALIGNED).lin.cross (s.Jc q i k).ang, 0⟩ := by
  have hm := Sys.oM_moves hal h.par hq j hj
  have hv := s.oM_valid h.par hq j hj
  have e1 := Jc_fst h hal hq h1 hi hk
  have e2 := Jc_snd h hal hc hq h1 hi hk
  have hb : (sε.oM (perturb q dq) j).trans.map fst = (s.oM q j).trans := congrArg SE3.trans hm.base
  have hl : (translateCol (s.oM q j) (s.oV q w j) .LOCAL_WORLD_ALIGNED).lin
      = (s.oM q j).rot.mulVec (s.V q w j).lin := by
    simp only [translateCol, Sys.oV, SE3.act]
    ext <;> simp
  have f1 : (sε.Jc (perturb q dq) i k).ang.map fst = (s.Jc q i k).ang := congrArg Motion.ang e1
  have f2 : (sε.Jc (perturb q dq) i k).ang.map snd = ((s.oV q w i).cross (s.Jc q i k)).ang := congrArg Motion.ang e2
  have f3 : (sε.Jc (perturb q dq) i k).lin.map snd = ((s.oV q w i).cross (s.Jc q i k)).lin := congrArg Motion.lin e2
  rw [hl]
  ext1
  · change ((sε.Jc (perturb q dq) i k).lin - (sε.oM (perturb q dq) j).trans.cross
      (sε.Jc (perturb q dq) i k).ang).map snd = _
    rw [V3.map_snd_sub, V3.map_snd_cross, f1, f2, f3, hb, hm.trans]
    simp only [translateCol, Motion.sub_lin]
    ext <;> simp <;> ring
  · change (sε.Jc (perturb q dq) i k).ang.map snd = _
    rw [f2]
    simp only [translateCol, Motion.sub_ang, sub_zero]

include hc hj in
theorem jac_var_local :
    (translateCol (sε.oM (perturb q dq) j) (sε.Jc (perturb q dq) i k) .LOCAL).map snd
      = (s.oM q j).actInv ((s.Jc q i k).cross (s.oV q w j - s.oV q w i)) := by
  have hm := Sys.oM_moves hal h.par hq j hj
  have hv := s.oM_valid h.par hq j hj
  change ((sε.oM (perturb q dq) j).actInv (sε.Jc (perturb q dq) i k)).map snd = _
  rw [hm.snd_actInv hv, Jc_fst h hal hq h1 hi hk, Jc_snd h hal hc hq h1 hi hk]
  have e : s.V q w j = (s.oM q j).actInv (s.oV q w j) := by unfold Sys.oV; rw [SE3.actInv_act hv]
  have hcr : ∀ a b : Motion K, (s.oM q j).actInv (a.cross b)
      = ((s.oM q j).actInv a).cross ((s.oM q j).actInv b) := by
    intro a b
    rw [← SE3.actInv_act hv (((s.oM q j).actInv a).cross ((s.oM q j).actInv b)), Motion.act_cross hv,
      SE3.act_actInv hv, SE3.act_actInv hv]
  rw [e, ← hcr, Motion.cross_sub, ← cross_swap (s.oV q w j), ← cross_swap (s.oV q w i)]
  ext <;> simp [SE3.actInv, M3.mulVec] <;> ring

end der

/-! ## the theorems -/

/-- `x ↦ x × b` -/
def crossR (b : Motion K) : Motion K →ₗ[K] Motion K where
  toFun a := a.cross b
  map_add' x y := Motion.add_cross x y b
  map_smul' k x := Motion.smul_cross k x b

/-- `x ↦ (x_lin × b, 0)` -/
def linCross (b : V3 K) : Motion K →ₗ[K] Motion K where
  toFun a := ⟨a.lin.cross b, 0⟩
  map_add' x y := by ext <;> simp <;> ring
  map_smul' k x := by ext <;> simp <;> ring

/-- column `r` of the Jacobian of joint `y` in the world frame -/
def wcol (s : Sys K) (d : Data K) (q : ℕ → K) (y r : ℕ) : Motion K :=
  getJointJacobian s (computeJointJacobians s d q) y .WORLD (fun _ => 0) r

theorem wcol_at (h : s.Packed) (hf : s.Full) (d : Data K) (q : ℕ → K) {y : ℕ} (hy : y < s.n) {i k : ℕ} (i1 : 1 ≤ i)
    (hi : i < s.n) (hk : k < s.jnv i) [Decidable (anc s.par i y)] :
    wcol s d q y (s.iv i + k) = if anc s.par i y then s.Jc q i k else 0 := by
  unfold wcol getJointJacobian
  rw [translate_at h hf hy .WORLD _ _ _ i1 hi hk, (jac_ok h d q).2 i i1 hi k hk]
  rfl

theorem wcol_sum (h : s.Packed) (hf : s.Full) (hq : s.At q) (d : Data K) {y : ℕ} (hy : y < s.n)
    (g : Motion K →ₗ[K] Motion K) (w : ℕ → K) :
    ∑ r ∈ range s.nv, w r • g (wcol s d q y r) = g (s.oV q w y) := by
  classical
  refine mul_support h hq hy g (J := fun r => g (wcol s d q y r)) (fun i i1 hi k hk _ => ?_) w
  rw [wcol_at h hf d q hy i1 hi hk]
  split
  · rfl
  · exact map_zero g

/-- The tensor in `data`: for two different rows of joints one of which supports the other, `S_outer × S_inner` with
`S` the columns of the Jacobian in the world frame. -/
theorem C67_tensor (h : s.Packed) (hT : T.Ok s) (d : Data K) (H0 : Hess K) {i k i' k' : ℕ} (i1 : 1 ≤ i) (hi : i < s.n)
    (hk : k < s.jnv i) (i1' : 1 ≤ i') (hi' : i' < s.n) (hk' : k' < s.jnv i')
    (hrel : anc s.par i i' ∨ anc s.par i' i) (hne : (i, k) ≠ (i', k')) :
    computeJointKinematicHessians s T (computeJointJacobians s d q).J H0 (s.iv i + k) (s.iv i' + k')
      = (s.Jc q i k).cross (s.Jc q i' k') := by
  have hJ := (jac_ok h d q).2
  rw [hessians_ok h hT _ H0 i k i' k' i1 hi hk i1' hi' hk' (Or.inl hi)
    ⟨hrel, fun e => hne (by rw [e.1, e.2])⟩, hJ i i1 hi k hk, hJ i' i1' hi' k' hk']

/-- In `WORLD`, the kinematic Hessian is the derivative of the Jacobian. -/
theorem C67_world (h : s.Packed) (hf : s.Full) (hT : T.Ok s) (hal : s.Along sε q w dq) (hc : s.ConstS sε) (hq : s.At q)
    (d : Data K) (dε : Data K[ε]) (H0 : Hess K) {j : ℕ} (j1 : 1 ≤ j) (hj : j < s.n) {c : ℕ} (hcn : c < s.nv) :
    ∑ r ∈ range s.nv, w r • hessianAt s T d H0 q j .WORLD r c = jacobianVar sε dε q dq j .WORLD c := by
  classical
  obtain ⟨i', k', i1', hi', hk', rfl⟩ := h.cover hcn
  have hJ := (jac_ok h d q).2
  have hH := hessians_ok h hT (computeJointJacobians s d q).J H0
  rw [jacobianVar_at h hf hal dε j1 hj .WORLD i1' hi' hk']
  have key : ∀ i, 1 ≤ i → i < s.n → ∀ k, k < s.jnv i →
      hessianAt s T d H0 q j .WORLD (s.iv i + k) (s.iv i' + k')
        = if anc s.par i j ∧ anc s.par i' j ∧ anc s.par i i' then (s.Jc q i k).cross (s.Jc q i' k') else 0 := by
    intro i i1 hi k hk
    rw [← hJ i i1 hi k hk, ← hJ i' i1' hi' k' hk']
    exact hess_world_at h hf hT hH j1 hj i1 hi hk i1' hi' hk' (computeJointJacobians s d q)
  by_cases ha' : anc s.par i' j
  · rw [if_pos ha', jac_var_world h hal hc hq i1' hi' hk']
    refine (sum_congr rfl fun r hr => ?_).trans (wcol_sum h hf hq d hi' (crossR (s.Jc q i' k')) w)
    obtain ⟨i, k, i1, hi, hk, rfl⟩ := h.cover (mem_range.1 hr)
    rw [key i i1 hi k hk, wcol_at h hf d q hi' i1 hi hk]
    congr 1
    by_cases ha : anc s.par i i'
    · rw [if_pos ⟨anc_trans h.par ha j hj ha', ha', ha⟩, if_pos ha]; rfl
    · rw [if_neg (fun x => ha x.2.2), if_neg ha, map_zero]
  · rw [if_neg ha']
    refine sum_eq_zero fun r hr => ?_
    obtain ⟨i, k, i1, hi, hk, rfl⟩ := h.cover (mem_range.1 hr)
    rw [key i i1 hi k hk, if_neg (fun x => ha' x.2.1), smul_zero]

/-- In `LOCAL_WORLD_ALIGNED`, the kinematic Hessian is the derivative of the Jacobian. -/
theorem C67_local_world_aligned (h : s.Packed) (hf : s.Full) (hT : T.Ok s) (hal : s.Along sε q w dq) (hc : s.ConstS sε)
    (hq : s.At q) (d : Data K) (dε : Data K[ε]) (H0 : Hess K) {j : ℕ} (j1 : 1 ≤ j) (hj : j < s.n) {c : ℕ}
    (hcn : c < s.nv) :
    ∑ r ∈ range s.nv, w r • hessianAt s T d H0 q j .LOCAL_WORLD_ALIGNED r c
      = jacobianVar sε dε q dq j .LOCAL_WORLD_ALIGNED c := by
  classical
  obtain ⟨i', k', i1', hi', hk', rfl⟩ := h.cover hcn
  obtain ⟨hpl, hJ⟩ := jac_ok h d q
  have hH := hessians_ok h hT (computeJointJacobians s d q).J H0
  rw [jacobianVar_at h hf hal dε j1 hj .LOCAL_WORLD_ALIGNED i1' hi' hk']
  have key : ∀ i, 1 ≤ i → i < s.n → ∀ k, k < s.jnv i →
      hessianAt s T d H0 q j .LOCAL_WORLD_ALIGNED (s.iv i + k) (s.iv i' + k')
        = if anc s.par i j ∧ anc s.par i' j then
            (if anc s.par i i' then
              translateCol (s.oM q j) ((s.Jc q i k).cross (s.Jc q i' k')) .LOCAL_WORLD_ALIGNED else 0)
            - ⟨(translateCol (s.oM q j) (s.Jc q i k) .LOCAL_WORLD_ALIGNED).lin.cross (s.Jc q i' k').ang, 0⟩
          else 0 := by
    intro i i1 hi k hk
    rw [← hJ i i1 hi k hk, ← hJ i' i1' hi' k' hk', ← (hpl j j1 hj).2.1]
    exact hess_lwa_at h hf hT hH j1 hj i1 hi hk i1' hi' hk' rfl
  by_cases ha' : anc s.par i' j
  · rw [if_pos ha', jac_var_lwa h hal hc hq i1' hi' hk' hj]
    set g1 := translateLin (s.oM q j) .LOCAL_WORLD_ALIGNED ∘ₗ crossR (s.Jc q i' k') with hg1
    set g2 := linCross (s.Jc q i' k').ang ∘ₗ translateLin (s.oM q j) .LOCAL_WORLD_ALIGNED with hg2
    have e1 := wcol_sum h hf hq d hi' g1 w
    have e2 := wcol_sum h hf hq d hj g2 w
    have e3 := congrArg₂ (· - ·) e1 e2
    simp only [← sum_sub_distrib] at e3
    refine (sum_congr rfl fun r hr => ?_).trans e3
    obtain ⟨i, k, i1, hi, hk, rfl⟩ := h.cover (mem_range.1 hr)
    rw [key i i1 hi k hk, wcol_at h hf d q hi' i1 hi hk, wcol_at h hf d q hj i1 hi hk, ← smul_sub]
    congr 1
    by_cases ha : anc s.par i j
    · rw [if_pos ⟨ha, ha'⟩, if_pos ha]
      refine congrArg₂ (· - ·) ?_ rfl
      split
      · rfl
      · exact (map_zero g1).symm
    · rw [if_neg (fun x => ha x.1), if_neg ha, if_neg (fun x => ha (anc_trans h.par x j hj ha')), map_zero, map_zero,
        sub_zero]
  · rw [if_neg ha']
    refine sum_eq_zero fun r hr => ?_
    obtain ⟨i, k, i1, hi, hk, rfl⟩ := h.cover (mem_range.1 hr)
    rw [key i i1 hi k hk, if_neg (fun x => ha' x.2), smul_zero]

/-- In `LOCAL`, exactly: the column of a joint not attached to the universe is off by the product of the column with
the velocity of the joint itself. -/
theorem C67_local_error (h : s.Packed) (hf : s.Full) (hT : T.Ok s) (hal : s.Along sε q w dq) (hc : s.ConstS sε)
    (hq : s.At q) (d : Data K) (dε : Data K[ε]) (H0 : Hess K) {j : ℕ} (j1 : 1 ≤ j) (hj : j < s.n) {i' k' : ℕ}
    (i1' : 1 ≤ i') (hi' : i' < s.n) (hk' : k' < s.jnv i') [Decidable (anc s.par i' j ∧ s.par i' ≠ 0)] :
    ∑ r ∈ range s.nv, w r • hessianAt s T d H0 q j .LOCAL r (s.iv i' + k')
      = jacobianVar sε dε q dq j .LOCAL (s.iv i' + k')
        + if anc s.par i' j ∧ s.par i' ≠ 0 then
            (s.oM q j).actInv ((s.Jc q i' k').cross ((s.oM q i').act (s.jvel q w i'))) else 0 := by
  classical
  obtain ⟨hpl, hJ⟩ := jac_ok h d q
  have hH := hessians_ok h hT (computeJointJacobians s d q).J H0
  rw [jacobianVar_at h hf hal dε j1 hj .LOCAL i1' hi' hk']
  have key : ∀ i, 1 ≤ i → i < s.n → ∀ k, k < s.jnv i →
      hessianAt s T d H0 q j .LOCAL (s.iv i + k) (s.iv i' + k')
        = if anc s.par i j ∧ anc s.par i' j ∧ s.par i ≠ 0 ∧ anc s.par i' i then
            (s.oM q j).actInv ((s.Jc q i' k').cross (s.Jc q i k)) else 0 := by
    intro i i1 hi k hk
    rw [← hJ i i1 hi k hk, ← hJ i' i1' hi' k' hk', ← (hpl j j1 hj).2.1]
    exact hess_local_at h hf hT hH j1 hj i1 hi hk i1' hi' hk' (computeJointJacobians s d q)
  by_cases ha' : anc s.par i' j
  · rw [if_pos ha', jac_var_local h hal hc hq i1' hi' hk' hj]
    have hpi := h.par.2 i' i1' hi'
    have hstep := Sys.oV_step h.par hq w i1' hi'
    set y := if s.par i' = 0 then i' else s.par i' with hy
    have hyn : y < s.n := by rw [hy]; split <;> omega
    set g := translateLin (s.oM q j) .LOCAL ∘ₗ crossLin (s.Jc q i' k') with hg
    have e1 := wcol_sum h hf hq d hj g w
    have e2 := wcol_sum h hf hq d hyn g w
    have e3 := congrArg₂ (· - ·) e1 e2
    simp only [← sum_sub_distrib] at e3
    have e4 : g (s.oV q w j) - g (s.oV q w y)
        = g (s.oV q w j - s.oV q w i') + if anc s.par i' j ∧ s.par i' ≠ 0 then
            g ((s.oM q i').act (s.jvel q w i')) else 0 := by
      by_cases hz : s.par i' = 0
      · rw [if_neg (fun x => x.2 hz), add_zero, hy, if_pos hz, ← map_sub]
      · rw [if_pos ⟨ha', hz⟩, hy, if_neg hz, ← map_sub, ← map_add, hstep]
        congr 1
        abel
    refine Eq.trans ?_ (e3.trans e4)
    refine sum_congr rfl fun r hr => ?_
    obtain ⟨i, k, i1, hi, hk, rfl⟩ := h.cover (mem_range.1 hr)
    rw [key i i1 hi k hk, wcol_at h hf d q hj i1 hi hk, wcol_at h hf d q hyn i1 hi hk, ← smul_sub]
    congr 1
    by_cases ha : anc s.par i j
    · rw [if_pos ha]
      have o1 := anc_order h.par hi hi' hj ha ha'
      have o2 := anc_order h.par hi' hi hj ha' ha
      have hst : anc s.par i i' ↔ i = i' ∨ anc s.par i (s.par i') := anc_step i1' hpi
      by_cases hz : s.par i' = 0
      · have hey : y = i' := by rw [hy, if_pos hz]
        have hb : anc s.par i i' ↔ i = i' := by
          rw [hst, hz, anc_zero]; omega
        rw [hey]
        by_cases ei : i = i'
        · subst ei
          rw [if_neg (fun x => x.2.2.1 hz), if_pos (anc_refl h.par hi), sub_self]
        · have hlt : i' ≤ i := by
            by_contra hcon; exact ei (hb.1 (o1.2 (by omega)))
          have hzi : s.par i ≠ 0 := by
            intro hzi
            have := (anc_step (i := i') i1 (h.par.2 i i1 hi)).1 (o2.2 hlt)
            rw [hzi, anc_zero] at this
            omega
          rw [if_pos ⟨ha, ha', hzi, o2.2 hlt⟩, if_neg (fun x => ei (hb.1 x)), map_zero, sub_zero]
          rfl
      · have hey : y = s.par i' := by rw [hy, if_neg hz]
        rw [hey]
        by_cases hlt : i' ≤ i
        · have hzi : s.par i ≠ 0 := by
            intro hzi
            have := (anc_step (i := i') i1 (h.par.2 i i1 hi)).1 (o2.2 hlt)
            rw [hzi, anc_zero] at this
            rcases this with e | e
            · subst e; exact hz hzi
            · omega
          rw [if_pos ⟨ha, ha', hzi, o2.2 hlt⟩, if_neg (fun x => by
            have := anc_le h.par (s.par i') (by omega) x; omega), map_zero, sub_zero]
          rfl
        · have hup : anc s.par i (s.par i') := by
            rcases hst.1 (o1.2 (by omega)) with e | e
            · omega
            · exact e
          rw [if_neg (fun x => by have := anc_le h.par i hi x.2.2.2; omega), if_pos hup, sub_self]
    · have hny : ¬ anc s.par i y := by
        intro hx
        have hyi : anc s.par y i' := by
          rw [hy]; split
          · exact anc_refl h.par hi'
          · exact (anc_step i1' hpi).2 (Or.inr (anc_refl h.par (by omega)))
        exact ha (anc_trans h.par (anc_trans h.par hx i' hi' hyi) j hj ha')
      rw [if_neg (fun x => ha x.1), if_neg ha, if_neg hny, map_zero, sub_zero]
  · rw [if_neg ha', if_neg (fun x => ha' x.1), add_zero]
    refine sum_eq_zero fun r hr => ?_
    obtain ⟨i, k, i1, hi, hk, rfl⟩ := h.cover (mem_range.1 hr)
    rw [key i i1 hi k hk, if_neg (fun x => ha' x.2.1), smul_zero]

/-- In `LOCAL`, the kinematic Hessian is the derivative of the Jacobian when the joints on the way to the universe
have one degree of freedom, except the one attached to the universe. Missing: the other models
(`C67_local_counterexample`). -/
theorem C67_local_partial (h : s.Packed) (hf : s.Full) (hT : T.Ok s) (hal : s.Along sε q w dq) (hc : s.ConstS sε)
    (hq : s.At q) (d : Data K) (dε : Data K[ε]) (H0 : Hess K) {j : ℕ} (j1 : 1 ≤ j) (hj : j < s.n)
    (hdof : ∀ i, 1 ≤ i → i < s.n → anc s.par i j → s.par i ≠ 0 → s.jnv i ≤ 1) {c : ℕ} (hcn : c < s.nv) :
    ∑ r ∈ range s.nv, w r • hessianAt s T d H0 q j .LOCAL r c = jacobianVar sε dε q dq j .LOCAL c := by
  classical
  obtain ⟨i', k', i1', hi', hk', rfl⟩ := h.cover hcn
  rw [C67_local_error h hf hT hal hc hq d dε H0 j1 hj i1' hi' hk']
  split
  · rename_i hx
    have hn := hdof i' i1' hi' hx.1 hx.2
    have e1 : s.jnv i' = 1 := by omega
    have e0 : k' = 0 := by omega
    subst e0
    have : (s.Jc q i' 0).cross ((s.oM q i').act (s.jvel q w i')) = 0 := by
      have ej : s.jvel q w i' = s.vs w i' 0 • s.S q i' 0 := by
        unfold Sys.jvel comb
        rw [e1, sum_range_one]
      have ea : (s.oM q i').act (s.vs w i' 0 • s.S q i' 0) = s.vs w i' 0 • s.Jc q i' 0 := by
        unfold Sys.Jc
        ext <;> simp [SE3.act, M3.mulVec] <;> ring
      rw [ej, ea, Motion.cross_smul, cross_self, smul_zero]
    rw [this]
    ext <;> simp [SE3.actInv, M3.mulVec]
  · rw [add_zero]

/-! ## The hypotheses of the theorems above are met -/

namespace Ex
/-- the tables of `sysA` -/
def tabA : HTab where
  sup j := match j with
    | 1 => [0, 1] | 2 => [0, 1, 2] | 3 => [0, 1, 3] | 4 => [0, 1, 3, 4] | _ => []
  sub j := match j with
    | 1 => [1, 2, 3, 4] | 2 => [2] | 3 => [3, 4] | 4 => [4] | _ => []
  supRow r := match r with
    | 0 => [0] | 1 => [0, 1] | 2 => [0, 2] | 3 => [0, 2, 3] | 4 => [0, 2, 3, 4] | 5 => [0, 2, 3, 4, 5] | _ => []
  start r := match r with
    | 0 => 0 | 1 => 1 | 5 => 5 | _ => 2
  stop r := match r with
    | 0 => 0 | 1 => 1 | 5 => 5 | _ => 4

theorem ancA (i : ℕ) : (anc sysA.par i 1 ↔ i = 1 ∨ i = 0) ∧ (anc sysA.par i 2 ↔ i = 2 ∨ i = 1 ∨ i = 0) ∧
    (anc sysA.par i 3 ↔ i = 3 ∨ i = 1 ∨ i = 0) ∧ (anc sysA.par i 4 ↔ i = 4 ∨ i = 3 ∨ i = 1 ∨ i = 0) := by
  have h1 : anc sysA.par i 1 ↔ i = 1 ∨ i = 0 := (anc_step (by decide) (by decide)).trans (or_congr_right anc_zero)
  have h3 : anc sysA.par i 3 ↔ i = 3 ∨ i = 1 ∨ i = 0 := (anc_step (by decide) (by decide)).trans (or_congr_right h1)
  exact ⟨h1, (anc_step (by decide) (by decide)).trans (or_congr_right h1), h3,
    (anc_step (by decide) (by decide)).trans (or_congr_right h3)⟩

theorem rowA (j : ℕ) (j1 : 1 ≤ j) (hj : j < sysA.n) (k : ℕ) (hk : k < sysA.jnv j) :
    (j = 1 ∧ k = 0) ∨ (j = 2 ∧ k = 0) ∨ (j = 3 ∧ k ≤ 2) ∨ (j = 4 ∧ k = 0) := by
  change j < 5 at hj
  interval_cases j
  · have : k < 1 := hk
    omega
  · have : k < 1 := hk
    omega
  · have : k < 3 := hk
    omega
  · have : k < 1 := hk
    omega

theorem tabA_ok : tabA.Ok sysA := by
  refine ⟨fun j j1 hj => ?_, fun j j1 hj => ?_, fun j k j1 hj hk => ?_, fun j k j1 hj hk => ?_, fun j k j1 hj hk => ?_⟩
  · change j < 5 at hj
    interval_cases j
    all_goals
      refine ⟨by decide, fun i => ?_⟩
      obtain ⟨a1, a2, a3, a4⟩ := ancA i
      first | rw [a1] | rw [a2] | rw [a3] | rw [a4]
      simp only [tabA, List.mem_cons, List.not_mem_nil, or_false]
      change _ ↔ i < 5 ∧ _
      omega
  · change j < 5 at hj
    have aux : ∀ i, i < 5 → (anc sysA.par j i ↔ (i = 0 ∧ j = 0) ∨ (i = 1 ∧ (j = 1 ∨ j = 0)) ∨
        (i = 2 ∧ (j = 2 ∨ j = 1 ∨ j = 0)) ∨ (i = 3 ∧ (j = 3 ∨ j = 1 ∨ j = 0)) ∨
        (i = 4 ∧ (j = 4 ∨ j = 3 ∨ j = 1 ∨ j = 0))) := by
      intro i hi
      obtain ⟨a1, a2, a3, a4⟩ := ancA j
      interval_cases i
      · rw [anc_zero]; omega
      · rw [a1]; omega
      · rw [a2]; omega
      · rw [a3]; omega
      · rw [a4]; omega
    interval_cases j
    all_goals
      refine ⟨by decide, fun i => ?_⟩
      simp only [tabA, List.mem_cons, List.not_mem_nil, or_false]
      change _ ↔ i < 5 ∧ _
      by_cases hi : i < 5
      · rw [aux i hi]; omega
      · omega
  · have hrows : ∀ r, (∃ i l, 1 ≤ i ∧ i < sysA.n ∧ l < sysA.jnv i ∧ r = sysA.iv i + l ∧ anc sysA.par i j ∧ (i = j → l ≤ k))
        ↔ (r = 0 ∧ anc sysA.par 1 j ∧ (1 = j → 0 ≤ k)) ∨ (r = 1 ∧ anc sysA.par 2 j ∧ (2 = j → 0 ≤ k)) ∨
          (r = 2 ∧ anc sysA.par 3 j ∧ (3 = j → 0 ≤ k)) ∨ (r = 3 ∧ anc sysA.par 3 j ∧ (3 = j → 1 ≤ k)) ∨
          (r = 4 ∧ anc sysA.par 3 j ∧ (3 = j → 2 ≤ k)) ∨ (r = 5 ∧ anc sysA.par 4 j ∧ (4 = j → 0 ≤ k)) := by
      intro r
      constructor
      · rintro ⟨i, l, i1, hi, hl, e, ha, hle⟩
        rcases rowA i i1 hi l hl with ⟨rfl, rfl⟩ | ⟨rfl, rfl⟩ | ⟨rfl, h2⟩ | ⟨rfl, rfl⟩
        · exact Or.inl ⟨e, ha, hle⟩
        · exact Or.inr (Or.inl ⟨e, ha, hle⟩)
        · interval_cases l
          · exact Or.inr (Or.inr (Or.inl ⟨e, ha, hle⟩))
          · exact Or.inr (Or.inr (Or.inr (Or.inl ⟨e, ha, hle⟩)))
          · exact Or.inr (Or.inr (Or.inr (Or.inr (Or.inl ⟨e, ha, hle⟩))))
        · exact Or.inr (Or.inr (Or.inr (Or.inr (Or.inr ⟨e, ha, hle⟩))))
      · rintro (⟨e, ha, hle⟩ | ⟨e, ha, hle⟩ | ⟨e, ha, hle⟩ | ⟨e, ha, hle⟩ | ⟨e, ha, hle⟩ | ⟨e, ha, hle⟩)
        · exact ⟨1, 0, by decide, by decide, by decide, e, ha, hle⟩
        · exact ⟨2, 0, by decide, by decide, by decide, e, ha, hle⟩
        · exact ⟨3, 0, by decide, by decide, by decide, e, ha, hle⟩
        · exact ⟨3, 1, by decide, by decide, by decide, e, ha, hle⟩
        · exact ⟨3, 2, by decide, by decide, by decide, e, ha, hle⟩
        · exact ⟨4, 0, by decide, by decide, by decide, e, ha, hle⟩
    rcases rowA j j1 hj k hk with ⟨rfl, rfl⟩ | ⟨rfl, rfl⟩ | ⟨rfl, h2⟩ | ⟨rfl, rfl⟩
    · refine ⟨by decide, fun r => (show r ∈ [0] ↔ _ from ?_).trans (hrows r).symm⟩
      simp [(ancA _).1]
    · refine ⟨by decide, fun r => (show r ∈ [0, 1] ↔ _ from ?_).trans (hrows r).symm⟩
      simp [(ancA _).2.1]
    · interval_cases k
      · refine ⟨by decide, fun r => (show r ∈ [0, 2] ↔ _ from ?_).trans (hrows r).symm⟩
        simp [(ancA _).2.2.1]
      · refine ⟨by decide, fun r => (show r ∈ [0, 2, 3] ↔ _ from ?_).trans (hrows r).symm⟩
        simp [(ancA _).2.2.1]
      · refine ⟨by decide, fun r => (show r ∈ [0, 2, 3, 4] ↔ _ from ?_).trans (hrows r).symm⟩
        simp [(ancA _).2.2.1]
    · refine ⟨by decide, fun r => (show r ∈ [0, 2, 3, 4, 5] ↔ _ from ?_).trans (hrows r).symm⟩
      simp [(ancA _).2.2.2]
  · rcases rowA j j1 hj k hk with ⟨rfl, rfl⟩ | ⟨rfl, rfl⟩ | ⟨rfl, h2⟩ | ⟨rfl, rfl⟩
    · rfl
    · rfl
    · interval_cases k <;> rfl
    · rfl
  · rcases rowA j j1 hj k hk with ⟨rfl, rfl⟩ | ⟨rfl, rfl⟩ | ⟨rfl, h2⟩ | ⟨rfl, rfl⟩
    · rfl
    · rfl
    · interval_cases k <;> rfl
    · rfl
end Ex

set_option maxRecDepth 100000 in
/-- `getJointKinematicHessian` in `LOCAL` is not the derivative of the Jacobian when a joint with several degrees of
freedom (here a spherical joint) is not attached to the universe: it also writes the products of the columns of this
joint with one another, although they are constant in the frame of the joint. -/
theorem C67_local_counterexample :
    Ex.sysA.Packed ∧ Ex.sysA.Full ∧ Ex.tabA.Ok Ex.sysA ∧ Ex.sysA.At Ex.qA ∧
    Ex.sysA.Along Ex.sysAε Ex.qA Ex.vA Ex.dqA ∧ Ex.sysA.ConstS Ex.sysAε ∧
    ∑ r ∈ range Ex.sysA.nv, Ex.vA r • hessianAt Ex.sysA Ex.tabA Data.zero (fun _ _ => 0) Ex.qA 3 .LOCAL r 2
      ≠ jacobianVar Ex.sysAε Data.zero Ex.qA Ex.dqA 3 .LOCAL 2 := by
  refine ⟨Ex.sysA_packed, Ex.sysA_full, Ex.tabA_ok, Ex.sysA_at, Ex.sysA_along, Ex.sysA_constS, fun hc => ?_⟩
  have := congrArg (fun m : Motion ℚ => m.ang.z) hc
  revert this
  decide +kernel

example := C67_tensor Ex.sysA_packed Ex.tabA_ok (q := Ex.qA) Data.zero (fun _ _ => 0) (i := 3) (k := 1) (i' := 4)
  (k' := 0) (by decide) (by decide) (by decide) (by decide) (by decide) (by decide)
  (Or.inl ((Ex.ancA 3).2.2.2.2 (by decide))) (by decide)
example := C67_world Ex.sysA_packed Ex.sysA_full Ex.tabA_ok Ex.sysA_along Ex.sysA_constS Ex.sysA_at Data.zero Data.zero
  (fun _ _ => 0) (j := 4) (by decide) (by decide) (c := 3) (by decide)
example := C67_local_world_aligned Ex.sysA_packed Ex.sysA_full Ex.tabA_ok Ex.sysA_along Ex.sysA_constS Ex.sysA_at
  Data.zero Data.zero (fun _ _ => 0) (j := 4) (by decide) (by decide) (c := 3) (by decide)
example := C67_local_partial Ex.sysA_packed Ex.sysA_full Ex.tabA_ok Ex.sysA_along Ex.sysA_constS Ex.sysA_at Data.zero
  Data.zero (fun _ _ => 0) (j := 2) (by decide) (by decide) (fun i h1 hi ha _ => by
    rw [(Ex.ancA i).2.1] at ha
    rcases ha with rfl | rfl | rfl
    · decide
    · decide
    · omega) (c := 1) (by decide)

set_option maxRecDepth 100000 in
/-- the derivative of the theorem is not zero -/
example : jacobianVar Ex.sysAε Data.zero Ex.qA Ex.dqA 2 .LOCAL 0 ≠ 0 := fun hc => by
  have h1 := congrArg (fun m : Motion ℚ => m.lin) hc
  revert h1
  decide +kernel

end Pin
