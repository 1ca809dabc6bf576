import Verif.Algo.CentroidalDerOut
import Verif.Props.RneaDerivatives
import Verif.Props.AbaDerivatives

/-!
# C55: derivatives of the centroidal dynamics and of the velocity of the centre of mass

The specification is in `Verif/Spec/CentDer.lean`. `Sys.ConstS`: no joint has a motion subspace that depends on the
configuration.
-/

namespace Pin
open Finset DualNumber TrivSqZeroExt
universe u
variable {K : Type u} [Field K] [LinearOrder K] [IsStrictOrderedRing K] [HasEps K] {s : Sys K} {sε : Sys K[ε]}
  {q w dq : ℕ → K}

omit [LinearOrder K] [IsStrictOrderedRing K] [HasEps K] in
/-- the centre of mass over dual numbers exists, so that `IsCentDer` is not vacuous -/
theorem C55_com_exists (hal : s.Along sε q w dq) (hM : s.subMass 0 ≠ 0) : ∃ c, IsComDual sε q dq c := by
  refine ⟨(inl (s.subMass 0)⁻¹ : K[ε]) • sε.msum (sε.pcom (perturb q dq)) 0, ⟨?_⟩⟩
  have e : (inl (s.subMass 0) : K[ε]) * inl (s.subMass 0)⁻¹ = 1 := by rw [← inl_mul, mul_inv_cancel₀ hM, inl_one]
  rw [subMass_inl hal]
  apply V3.ext
  all_goals
    show inl (s.subMass 0) * (inl (s.subMass 0)⁻¹ * _) = _
    rw [← mul_assoc, e, one_mul]

/-- `computeCentroidalDynamicsDerivatives`: the four matrices are the derivatives of the centroidal momentum and of its
rate of change; `data.hg`, `data.dhg`, `data.com[0]`, `data.mass[0]` are the centroidal momentum, its rate of change, the
centre of mass and the total mass, and `data.Ag` is `dhdot_da`. `data.oa[0]` is zero: no function of the library sets it. -/
theorem C55_compute_partial (h : s.Packed) (hm : s.MassesOk) (hM : s.subMass 0 ≠ 0) (hal : s.Along sε q w dq)
    (hc : s.ConstS sε) (hq : s.At q) (d : Data K) (h0 : d.oa 0 = 0) (v a : ℕ → K) (o : CentDer K) :
    let x := computeCentroidalDynamicsDerivatives s d q v a o
    IsCentDer s sε q w dq v a x.2.dh_dq x.2.dhdot_dq x.2.dhdot_dv x.2.dhdot_da ∧ x.2.dhdot_da = x.1.Ag ∧
    x.1.hg = (s.hsum q v).atPoint (s.comPos q 0) ∧ x.1.dhg = (s.dhsum q v a).atPoint (s.comPos q 0) ∧
    x.1.com 0 = s.comPos q 0 ∧ x.1.mass 0 = s.subMass 0 := by
  have e : computeCentroidalDynamicsDerivatives s d q v a o
      = cdOutputs s (cdGlobals (cdCore s d q v a)) (cdCore s d q v a).dFdq o := rfl
  rw [e]
  obtain ⟨a1, a2, a3, a4, a5, a6, -⟩ := ((cdCore_ok h hm hq v a h0).out h hq).der h hM hal hc hq o
  exact ⟨a1, a2, a3, a4, a5, a6⟩

/-- `getCentroidalDynamicsDerivatives` after `computeRNEADerivatives` without external forces: the same result. Gravity is
a linear acceleration. -/
theorem C55_get_partial (h : s.Packed) (hcr : crbaCheck s.par s.n = true) (hm : s.MassesOk) (hM : s.subMass 0 ≠ 0)
    (hal : s.Along sε q w dq) (hc : s.ConstS sε) (hq : s.At q) (hg : s.grav.ang = 0) (d : Data K) (v a : ℕ → K)
    (o' : RneaDer K) (o : CentDer K) :
    let x := getCentroidalDynamicsDerivatives s (computeRNEADerivatives s d q v a o').1 o
    IsCentDer s sε q w dq v a x.2.dh_dq x.2.dhdot_dq x.2.dhdot_dv x.2.dhdot_da ∧ x.2.dhdot_da = x.1.Ag ∧
    x.1.hg = (s.hsum q v).atPoint (s.comPos q 0) ∧ x.1.dhg = (s.dhsum q v a).atPoint (s.comPos q 0) ∧
    x.1.com 0 = s.comPos q 0 ∧ x.1.mass 0 = s.subMass 0 := by
  have hd := (getCdCore_ok h (rneaDerivatives_pre h ((crbaCheck_iff h.par).1 hcr) hm d hq v a o')).out h hq hg
  generalize (computeRNEADerivatives s d q v a o').1 = e at hd ⊢
  have e : getCentroidalDynamicsDerivatives s e o
      = cdOutputs s (cdGlobals { getCdCore s e with
          of := upd (getCdCore s e).of 0 ((getCdCore s e).of 0 + ((getCdCore s e).oYcrb 0).mul s.grav) })
        ((getCdCore s e).Fcrb 0) o := rfl
  rw [e]
  obtain ⟨a1, a2, a3, a4, a5, a6, -⟩ := hd.der h hM hal hc hq o
  exact ⟨a1, a2, a3, a4, a5, a6⟩

omit [LinearOrder K] [IsStrictOrderedRing K] [HasEps K] in
theorem centerOfMassD_keep (hn : 0 < s.n) (d : Data K) (lvl : KLevel) (sub : Bool) :
    (centerOfMassD s d lvl sub).v = d.v ∧ (centerOfMassD s d lvl sub).joints = d.joints ∧
    (centerOfMassD s d lvl sub).oMi = d.oMi := by
  have e : centerOfMassD s d lvl sub
      = comEnd lvl (bwd (comBwd s lvl sub) s.n (fwd (comFwd s lvl) s.n (comStart lvl d))) := rfl
  rw [e]
  have k0 : ∀ d : Data K, (comStart lvl d).v = d.v ∧ (comStart lvl d).joints = d.joints ∧ (comStart lvl d).oMi = d.oMi := by
    intro d; unfold comStart; cases lvl <;> simp [KLevel.vel, KLevel.acc]
  have k1 : ∀ d : Data K, (comEnd lvl d).v = d.v ∧ (comEnd lvl d).joints = d.joints ∧ (comEnd lvl d).oMi = d.oMi := by
    intro d; unfold comEnd; cases lvl <;> simp [KLevel.vel, KLevel.acc]
  have k2 : ∀ i (d : Data K), (comFwd s lvl i d).v = d.v ∧ (comFwd s lvl i d).joints = d.joints
      ∧ (comFwd s lvl i d).oMi = d.oMi := by
    intro i d; unfold comFwd; cases lvl <;> simp [KLevel.vel, KLevel.acc]
  have k3 : ∀ i (d : Data K), (comBwd s lvl sub i d).v = d.v ∧ (comBwd s lvl sub i d).joints = d.joints
      ∧ (comBwd s lvl sub i d).oMi = d.oMi := by
    intro i d; unfold comBwd; cases lvl <;> cases sub <;> simp [KLevel.vel, KLevel.acc]
  have f1 := fwd_ind (step := comFwd s lvl) (n := s.n) (d := comStart lvl d)
    (P := fun _ (e : Data K) => e.v = d.v ∧ e.joints = d.joints ∧ e.oMi = d.oMi) hn (k0 d)
    (fun i e _ _ ⟨x, y, z⟩ => ⟨(k2 i e).1.trans x, (k2 i e).2.1.trans y, (k2 i e).2.2.trans z⟩)
  have f2 := bwd_ind (step := comBwd s lvl sub) (n := s.n) (d := fwd (comFwd s lvl) s.n (comStart lvl d))
    (P := fun _ (e : Data K) => e.v = d.v ∧ e.joints = d.joints ∧ e.oMi = d.oMi) hn f1
    (fun i e _ _ ⟨x, y, z⟩ => ⟨(k3 i e).1.trans x, (k3 i e).2.1.trans y, (k3 i e).2.2.trans z⟩)
  exact ⟨(k1 _).1.trans f2.1, (k1 _).2.1.trans f2.2.1, (k1 _).2.2.trans f2.2.2⟩

theorem hsum_lin_ring {R : Type*} [CommRing R] {s : Sys R} (hp : ParOk s.par s.n) {q : ℕ → R} (v : ℕ → R) :
    (s.hsum q v).lin = s.msum (s.wcom q v) 0 := by
  have hs : ∀ (t : Finset ℕ) (g : ℕ → Force R), (∑ b ∈ t, g b).lin = ∑ b ∈ t, (g b).lin := by
    classical
    intro t g
    induction t using Finset.induction_on with
    | empty => rfl
    | insert a t ha ih => rw [sum_insert ha, sum_insert ha, ← ih]; rfl
  unfold Sys.hsum Sys.msum
  rw [hs, subtree_root hp]
  apply sum_congr rfl
  intro b _
  unfold Sys.wcom
  ext <;> simp [-mul_eq_mul_left_iff, Inertia.mul, SE3.actF] <;> ring

/-- columns to derivative -/
theorem comVelDer_of (h : s.Packed) (hM : s.subMass 0 ≠ 0) (hal : s.Along sε q w dq) (hc : s.ConstS sε) (hq : s.At q)
    {v : ℕ → K} {d : Data K} (hd : CvIn s q v d) (x : ℕ → V3 K) {c : V3 K[ε]}
    (hcc : sε.subMass 0 • c = sε.msum (sε.wcom (perturb q dq) (perturb v (fun _ => 0))) 0) :
    ∑ r ∈ range s.nv, w r • getCenterOfMassVelocityDerivatives s d x r = c.map snd := by
  have hp := h.par
  have hpε : ParOk sε.par sε.n := by rw [hal.par, hal.n]; exact hp
  have hcol : ∀ i, 1 ≤ i → i < s.n → ∀ k, k < s.jnv i →
      s.subMass 0 • getCenterOfMassVelocityDerivatives s d x (s.iv i + k) = (s.hQ q v i k).lin := by
    unfold getCenterOfMassVelocityDerivatives
    have key := fwd_ind (step := comVelDerStep s d) (n := s.n) (d := x)
      (P := fun m (y : ℕ → V3 K) => ∀ i, 1 ≤ i → i < m → i < s.n → ∀ k, k < s.jnv i →
        s.subMass 0 • y (s.iv i + k) = (s.hQ q v i k).lin) hp.1
      (fun i _ _ => by omega) (fun i y h1 hi ih j j1 hj hjn k hk => by
        by_cases e : j = i
        · subst e; exact comVelDer_col h hq hM hd h1 hi hk y
        · have : ¬ (s.iv i ≤ s.iv j + k ∧ s.iv j + k < s.iv i + s.jnv i) := by
            rintro ⟨x, y⟩
            exact e (h.inj j1 hjn h1 hi hk (l := s.iv j + k - s.iv i) (by omega) (by omega)).1
          unfold comVelDerStep
          dsimp only
          rw [putSeg_out _ _ this]
          exact ih j j1 (by omega) hjn k hk)
    intro i h1 hi k hk
    exact key i h1 hi hi k hk
  have e1 : s.subMass 0 • c.map snd = ((sε.hsum (perturb q dq) (perturb v (fun _ => 0))).map snd).lin := by
    have e2 := congrArg (V3.map snd) hcc
    rw [← hsum_lin_ring hpε, subMass_inl hal] at e2
    have f2 : ((inl (s.subMass 0) : K[ε]) • c).map snd = s.subMass 0 • c.map snd := by
      ext <;> simp [V3.map]
    rw [f2] at e2
    exact e2
  have inj : ∀ x y : V3 K, s.subMass 0 • x = s.subMass 0 • y → x = y := by
    intro x y e
    have := congrArg (fun z => (s.subMass 0)⁻¹ • z) e
    simpa only [smul_smul, inv_mul_cancel₀ hM, one_smul] using this
  apply inj
  rw [e1, Sys.hsum_var hal hc hp hq, Force.sum_lin, ← h.sum_seg, smul_sum]
  refine sum_congr rfl fun j hj => ?_
  rw [Force.sum_lin, smul_sum]
  refine sum_congr rfl fun l hl => ?_
  rw [smul_comm, hcol j (mem_Ico.1 hj).1 (mem_Ico.1 hj).2 l (mem_range.1 hl)]
  ext <;> simp

/-- `getCenterOfMassVelocityDerivatives` after `centerOfMass(model, data, q, v)`, the masses of all subtrees being
non-zero: the derivative in the configuration of the velocity `c` of the centre of mass -/
theorem C55_com_velocity_partial (h : s.Packed) (hM : ∀ i, i < s.n → s.subMass i ≠ 0) (hal : s.Along sε q w dq)
    (hc : s.ConstS sε) (hq : s.At q) (d : Data K) (v : ℕ → K) (x : ℕ → V3 K) {c : V3 K[ε]}
    (hcc : sε.subMass 0 • c = sε.msum (sε.wcom (perturb q dq) (perturb v (fun _ => 0))) 0) :
    ∑ r ∈ range s.nv, w r • getCenterOfMassVelocityDerivatives s (centerOfMassV s d q v true) x r = c.map snd := by
  have hp := h.par
  have o := com_out1 hp d hq v true
  obtain ⟨f1, f2⟩ := fk1_ok hp d hq v
  obtain ⟨k1, k2, k3⟩ := centerOfMassD_keep hp.1 (forwardKinematicsV s d q v) .VELOCITY true
  refine comVelDer_of h (hM 0 hp.1) hal hc hq ⟨?_, ?_, ?_, ?_, o.mass, ?_, ?_⟩ x hcc
  · intro i h1 hi; unfold centerOfMassV; rw [k1]; exact (f2 i h1 hi).1
  · intro i h1 hi; unfold centerOfMassV; rw [k2]; exact (f2 i h1 hi).2.1
  · intro i h1 hi; unfold centerOfMassV; rw [k2]; exact (f1 i h1 hi).2.2.1
  · intro i h1 hi; unfold centerOfMassV; rw [k3]; exact (f1 i h1 hi).2.1
  · intro i h1 hi; rw [o.com i h1 hi, if_pos rfl, smul_smul, mul_inv_cancel₀ (hM i hi), one_smul]
  · intro i h1 hi; rw [o.vcom rfl i h1 hi, if_pos rfl, smul_smul, mul_inv_cancel₀ (hM i hi), one_smul]

/-! ## The conditions cannot be dropped -/

/-- output matrices of zeros -/
def CentDer.zero : CentDer ℚ := ⟨fun _ => 0, fun _ => 0, fun _ => 0, fun _ => 0⟩

set_option maxRecDepth 100000 in
/-- `getCentroidalDynamicsDerivatives` adds the momenta of the children to `data.oh` of their parents: a second call on
the same data, nothing else being computed in between, gives another momentum and other derivatives. -/
theorem C55_twice_counterexample :
    let d := (computeRNEADerivatives Ex.sysA Data.zero Ex.qA Ex.wA' Ex.vA RneaDer.zero).1
    let x := getCentroidalDynamicsDerivatives Ex.sysA d CentDer.zero
    let y := getCentroidalDynamicsDerivatives Ex.sysA x.1 CentDer.zero
    x.1.hg ≠ y.1.hg ∧ x.2.dh_dq 0 ≠ y.2.dh_dq 0 := by
  decide +kernel

set_option maxRecDepth 100000 in
/-- After `computeRNEADerivatives` with external forces, `data.dhg` is not the rate of change of the momentum: the
external forces have been taken off. -/
theorem C55_fext_counterexample :
    let q : ℕ → ℚ := fun _ => 2
    let d := (computeRNEADerivativesFext Ex.sysT Data.zero q q q (fun _ => ⟨⟨1, 0, 0⟩, 0⟩) RneaDer.zero).1
    (getCentroidalDynamicsDerivatives Ex.sysT d CentDer.zero).1.dhg
      ≠ (computeCentroidalMomentumTimeVariation Ex.sysT Data.zero q q q).dhg := by
  decide +kernel

set_option maxRecDepth 100000 in
/-- `getCentroidalDynamicsDerivatives` uses `data.v[0]` as work space: afterwards the universe has a velocity
(`getVelocity` of joint `0` returns it). -/
theorem C55_universe_velocity_counterexample :
    let q : ℕ → ℚ := fun _ => 2
    let d := (computeRNEADerivatives Ex.sysT Data.zero q q q RneaDer.zero).1
    getVelocity d 0 .LOCAL = 0 ∧
    getVelocity (getCentroidalDynamicsDerivatives Ex.sysT d CentDer.zero).1 0 .LOCAL ≠ 0 := by
  decide +kernel

set_option maxRecDepth 100000 in
/-- With a `JointModelSphericalZYX`, whose motion subspace depends on the configuration, the result is wrong. -/
theorem C55_constS_counterexample :
    let q : ℕ → ℚ := fun k => if k = 1 then 2 else 0
    let v : ℕ → ℚ := fun _ => 1
    let x := computeCentroidalDynamicsDerivatives Ex.sysZ Data.zero q v v CentDer.zero
    Ex.sysZ.Packed ∧ Ex.sysZ.MassesOk ∧ Ex.sysZ.subMass 0 ≠ 0 ∧ Ex.sysZ.Along Ex.sysZε q v v ∧ Ex.sysZ.At q ∧
      ¬ IsCentDer Ex.sysZ Ex.sysZε q v v v v x.2.dh_dq x.2.dhdot_dq x.2.dhdot_dv x.2.dhdot_da := by
  intro q v x
  obtain ⟨a, b, c⟩ := Ex.sysZ_ok
  have hM : Ex.sysZ.subMass 0 ≠ 0 := by
    unfold Sys.subMass
    rw [subtree_root a.par]
    decide +kernel
  refine ⟨a, fun _ _ _ => Ex.sysA_masses 1 (by decide) (by decide), hM, Ex.sysZ_along q v, c q, fun h => ?_⟩
  obtain ⟨p, hp⟩ := C55_com_exists (Ex.sysZ_along q v) hM
  have e := congrArg Force.lin (h.mom p hp (fun _ => 0))
  rw [atPoint_snd] at e
  have e' : (∑ r ∈ range Ex.sysZ.nv, (v r • x.2.dh_dq r + (0 : ℚ) • x.2.dhdot_da r)).lin
      = ((Ex.sysZε.hsum (perturb q v) (perturb v (fun _ => 0))).map snd).lin - 0 := e
  revert e'
  decide +kernel

/-! ## The hypotheses of the theorems above are met -/

theorem Ex.sysA_subMass : ∀ i, i < Ex.sysA.n → Ex.sysA.subMass i ≠ 0 := by
  intro i hi
  rw [← C19_subtreeMasses Ex.sysA_packed.par Data.zero hi]
  have : i < 5 := hi
  interval_cases i <;> decide +kernel

example := C55_com_exists Ex.sysA_along (Ex.sysA_subMass 0 (by decide))
example := C55_compute_partial Ex.sysA_packed Ex.sysA_masses (Ex.sysA_subMass 0 (by decide)) Ex.sysA_along Ex.sysA_constS
  Ex.sysA_at Data.zero rfl Ex.wA' Ex.vA CentDer.zero
example := C55_get_partial Ex.sysA_packed (by decide) Ex.sysA_masses (Ex.sysA_subMass 0 (by decide)) Ex.sysA_along
  Ex.sysA_constS Ex.sysA_at (by decide) Data.zero Ex.wA' Ex.vA RneaDer.zero CentDer.zero
example := fun c => C55_com_velocity_partial Ex.sysA_packed Ex.sysA_subMass Ex.sysA_along
  Ex.sysA_constS Ex.sysA_at Data.zero Ex.wA' (fun _ => 0) (c := c)

end Pin
