import Verif.Algo.EnergyLemmas
import Verif.Algo.Examples
import Verif.Spec.Matrix
import Verif.Props.Kinematics
import Verif.Model.Examples

/-!
# C12–C15, C43: inverse dynamics, joint-space inertia matrix, energies

Specification: `Sys.V q w i` is the velocity of body `i` under the joint velocity `w` (`C11_velocity`: it is
what `forwardKinematics` computes), i.e. `J_i(q) w`; `Sys.massForm q w a = Σ_i (J_i w)·(I_i J_i a) + Σ_r w_r
armature_r a_r`; `symUpper` completes an upper triangle.

`d`, `d'`, `d''` are arbitrary previous contents of `Data`.
-/

namespace Pin
open Finset DualNumber TrivSqZeroExt

section ring
variable {K : Type*} [CommRing K] {s : Sys K}

theorem Sys.F_split (hp : ParOk s.par s.n) (a0 : Motion K) (q v a : ℕ → K) {i : ℕ} (hi : i < s.n) :
    s.F a0 q v a i = (s.Y i).mul (s.V q a i) + s.F a0 q v (fun _ => 0) i := by
  unfold Sys.F
  rw [s.A_eq hp a0 q v a i hi, Inertia.mul_add, add_assoc]

/-- Inverse dynamics is affine in the acceleration; its linear part is the kinetic-energy form. Holds for
all models, with mimic joints or not, whatever the order of the joints. -/
theorem C12_affine (hw : s.WF) (d d' : Data K) {q : ℕ → K} (hq : s.At q) (v a w : ℕ → K) :
    s.dotv w (rnea s d q v a).tau = s.massForm q w a + s.dotv w (nonLinearEffects s d' q v).nle := by
  rw [rnea_power hw d hq, nle_power hw d' hq, sum_congr rfl (fun i hi => by
    rw [Sys.F_split hw.par (-s.grav) q v a (mem_Ico.1 hi).2, Motion.dot_add]), sum_add_distrib]
  unfold Sys.massForm
  ring

/-- External forces, expressed in the joint frames, are subtracted through the transposed Jacobians -/
theorem C15_fext (hw : s.WF) (d d' : Data K) {q : ℕ → K} (hq : s.At q) (v a : ℕ → K) (fext : ℕ → Force K)
    {r : ℕ} (hr : r < s.nv) :
    (rneaFext s d q v a fext).tau r
      = (rnea s d' q v a).tau r - ∑ i ∈ Ico 1 s.n, (s.V q (Sys.unit r) i).dot (fext i) := by
  have h1 := rneaFext_power hw d hq v a fext (Sys.unit r)
  have h2 := rnea_power hw d' hq v a (Sys.unit r)
  rw [Sys.dotv_unit hr] at h1 h2
  rw [h1, h2, sum_congr rfl (fun i _ => Motion.dot_sub ..), sum_sub_distrib]
  ring

/-- the same for `computeStaticTorque`, relative to `computeGeneralizedGravity` -/
theorem C15_static (hw : s.WF) (d d' : Data K) (q : ℕ → K) (fext : ℕ → Force K) {r : ℕ} (hr : r < s.nv) :
    (computeStaticTorque s d q fext).tau r
      = (computeGeneralizedGravity s d' q).g r - ∑ i ∈ Ico 1 s.n, (s.V q (Sys.unit r) i).dot (fext i) := by
  have h1 := static_power hw d q fext (Sys.unit r)
  have h2 := grav_power hw d' q (Sys.unit r)
  rw [Sys.dotv_unit hr] at h1 h2
  rw [h1, h2, sum_congr rfl (fun i _ => Motion.dot_sub ..), sum_sub_distrib]

/-- joints without bias at rest (all of them, `C15_bias_at_rest`) -/
def Sys.RestBias (s : Sys K) (q : ℕ → K) : Prop := ∀ i, 1 ≤ i → i < s.n → s.cb q (fun _ => 0) i = 0

theorem Sys.A_rest (hp : ParOk s.par s.n) {q : ℕ → K} (hb : s.RestBias q) : ∀ i, i < s.n →
    s.A (-s.grav) q (fun _ => 0) (fun _ => 0) i = s.base q i := by
  intro i hi; refine joint_ind s hp ?_ ?_ i hi <;> clear hi i
  · rw [A_zero]; unfold Sys.base; rw [treeRec_zero]
  · intro i h1 hi ih
    have hpi := hp.2 i h1 hi
    rw [A_step s h1 hpi, ih, jvel_zero, hb i h1 hi]
    unfold Sys.base
    rw [treeRec_step _ _ h1 hpi]
    simp

/-- The gravity torque is the inverse dynamics at rest and the nonlinear effects at rest. -/
theorem C15_gravity (hw : s.WF) (d d' d'' : Data K) {q : ℕ → K} (hq : s.At q) (hb : s.RestBias q) {r : ℕ}
    (hr : r < s.nv) :
    (computeGeneralizedGravity s d q).g r = (nonLinearEffects s d' q (fun _ => 0)).nle r ∧
    (computeGeneralizedGravity s d q).g r = (rnea s d'' q (fun _ => 0) (fun _ => 0)).tau r := by
  have h1 := grav_power hw d q (Sys.unit r)
  have h2 := nle_power hw d' hq (fun _ => 0) (Sys.unit r)
  have h3 := rnea_power hw d'' hq (fun _ => 0) (fun _ => 0) (Sys.unit r)
  rw [Sys.dotv_unit hr] at h1 h2 h3
  have e : ∑ i ∈ Ico 1 s.n, (s.V q (Sys.unit r) i).dot (s.F (-s.grav) q (fun _ => 0) (fun _ => 0) i)
      = ∑ i ∈ Ico 1 s.n, (s.V q (Sys.unit r) i).dot ((s.Y i).mul (s.base q i)) := by
    apply sum_congr rfl
    intro i hi
    rw [mem_Ico] at hi
    unfold Sys.F
    rw [Sys.A_rest hw.par hb i hi.2, s.V_zero_vel hw.par q i hi.2]
    simp
  rw [h1, h2, h3, e]
  simp [Sys.dotv]

/-- **Power balance.** Along every trajectory (configuration, velocity and acceleration consistent), twice
the mechanical energy (`computeKineticEnergy` and `computePotentialEnergy` return these two, `C13_kinetic_partial`,
`C43_potential`) has derivative `2 τ·v` where `τ` is what `rnea` returns. -/
theorem C43_power_balance {sε : Sys K[ε]} {q v dq : ℕ → K} (h : s.Along sε q v dq) (hw : s.WF) (hq : s.At q)
    (hg : s.grav.ang = 0) (d : Data K) (a : ℕ → K) :
    (sε.massForm (perturb q dq) (perturb v a) (perturb v a) + 2 * sε.potential (perturb q dq)).snd
      = 2 * s.dotv v (rnea s d q v a).tau := by
  have e2 : (2 * sε.potential (perturb q dq)).snd = 2 * (sε.potential (perturb q dq)).snd := by
    rw [two_mul, snd_add, two_mul]
  rw [snd_add, e2, Sys.massForm_snd h hw.par hq, Sys.potential_snd h hw.par hq hg, rnea_power hw d hq]
  have : ∀ i ∈ Ico 1 s.n, (s.V q v i).dot (s.F (-s.grav) q v a i)
      = (s.V q v i).dot ((s.Y i).mul (s.A 0 q v a i))
        + (s.V q v i).dot ((s.Y i).mul ((s.oM q i).actInv (-s.grav))) := by
    intro i hi
    rw [mem_Ico] at hi
    unfold Sys.F
    rw [s.A_base hw.par (-s.grav) q v a i hi.2, s.base_eq hw.par hq (-s.grav) i hi.2, Motion.dot_add,
      Inertia.mul_add, Motion.dot_add, Motion.dot_crossF_self, add_zero]
  rw [sum_congr rfl this, sum_add_distrib]
  ring

/-- The gravity torque is the gradient of the potential energy. -/
theorem C43_gravity_gradient {sε : Sys K[ε]} {q v dq : ℕ → K} (h : s.Along sε q v dq) (hw : s.WF) (hq : s.At q)
    (hg : s.grav.ang = 0) (d : Data K) :
    (sε.potential (perturb q dq)).snd = s.dotv v (computeGeneralizedGravity s d q).g := by
  rw [Sys.potential_snd h hw.par hq hg, grav_power hw d q]
  apply sum_congr rfl
  intro i hi
  rw [mem_Ico] at hi
  unfold Sys.base
  rw [s.base_eq hw.par hq (-s.grav) i hi.2]

end ring

section field
variable {K : Type*} [Field K] [LinearOrder K] [IsStrictOrderedRing K] [HasEps K] {s : Sys K}

/-- the entries of the matrix completed from the upper triangle `crba` writes -/
theorem crba_sym (h : s.Packed) {q : ℕ → K} (hq : s.At q) {M M0 : ℕ → ℕ → K} (h0 : s.BranchZero M0)
    (he : ∀ i k j l, 1 ≤ i → i < s.n → k < s.jnv i → j < s.n → l < s.jnv j → anc s.par i j →
      M (s.iv i + k) (s.iv j + l) = s.massForm q (Sys.unit (s.iv i + k)) (Sys.unit (s.iv j + l)))
    (ho : ∀ i k j l, 1 ≤ i → i < s.n → k < s.jnv i → 1 ≤ j → j < s.n → l < s.jnv j → ¬ anc s.par i j →
      M (s.iv i + k) (s.iv j + l) = M0 (s.iv i + k) (s.iv j + l)) {r c : ℕ} (hr : r < s.nv) (hc : c < s.nv) :
    symUpper M r c = s.massForm q (Sys.unit r) (Sys.unit c) := by
  have key : ∀ r c, r < s.nv → c < s.nv → r ≤ c → M r c = s.massForm q (Sys.unit r) (Sys.unit c) := by
    intro r c hr hc hrc
    obtain ⟨i, k, hi1, hi, hk, rfl⟩ := h.cover hr
    obtain ⟨j, l, hj1, hj, hl, rfl⟩ := h.cover hc
    by_cases ha : anc s.par i j
    · exact he i k j l hi1 hi hk hj hl ha
    · have hb : ¬ anc s.par j i := by
        intro hb
        have hji := anc_le h.par i hi hb
        have hne : j ≠ i := by rintro rfl; exact ha hb
        have := h.mono hj1 (lt_of_le_of_ne hji hne) hi
        omega
      rw [ho i k j l hi1 hi hk hj1 hj hl ha, h0 i j hi1 hi hj1 hj ha hb k hk l hl,
        Sys.massForm_unrelated h hq hi1 hi hk hj1 hj hl ha hb]
  unfold symUpper
  split
  · rename_i hrc; exact key r c hr hc hrc
  · rename_i hrc; rw [key c r hc hr (by omega), Sys.massForm_symm]

/-- Both conventions return the same whole matrix (upper triangle, and what they leave untouched). -/
theorem C14_conventions (h : s.Packed) (hc : crbaCheck s.par s.n = true) (hm : s.MassesOk) (d d' : Data K)
    {q : ℕ → K} (hq : s.At q) (hd : d.M = d'.M) {r c : ℕ} (hr : r < s.nv) (hcv : c < s.nv) :
    (crbaLocal s d q).M r c = (crbaWorld s d' q).M r c := by
  have hc := (crbaCheck_iff h.par).1 hc
  obtain ⟨i, k, hi1, hi, hk, rfl⟩ := h.cover hr
  obtain ⟨j, l, hj1, hj, hl, rfl⟩ := h.cover hcv
  by_cases ha : anc s.par i j
  · rw [crbaLocal_entry h hc hm d hq hi1 hi hk hj hl ha, crbaWorld_entry h hc hm d' hq hi1 hi hk hj hl ha]
  · rw [crbaLocal_other h hc hm d hq hi1 hi hk hj1 hj hl ha, crbaWorld_other h hc hm d' q hi1 hi hk hj1 hj hl ha,
      hd]

/-- The matrix completed from `crba` is the matrix of the kinetic-energy form, for both conventions. -/
theorem C13_entries (h : s.Packed) (hc : crbaCheck s.par s.n = true) (hm : s.MassesOk) (d : Data K) {q : ℕ → K}
    (hq : s.At q) (h0 : s.BranchZero d.M) {r c : ℕ} (hr : r < s.nv) (hcv : c < s.nv) :
    symUpper (crbaWorld s d q).M r c = s.massForm q (Sys.unit r) (Sys.unit c) ∧
    symUpper (crbaLocal s d q).M r c = s.massForm q (Sys.unit r) (Sys.unit c) := by
  have hc := (crbaCheck_iff h.par).1 hc
  constructor
  · exact crba_sym h hq h0 (fun i k j l a b c d' e f => crbaWorld_entry h hc hm d hq a b c d' e f)
      (fun i k j l a b c d' e f g => crbaWorld_other h hc hm d q a b c d' e f g) hr hcv
  · exact crba_sym h hq h0 (fun i k j l a b c d' e f => crbaLocal_entry h hc hm d hq a b c d' e f)
      (fun i k j l a b c d' e f g => crbaLocal_other h hc hm d hq a b c d' e f g) hr hcv

/-- The zeros between branches, with which `Data` is constructed, are kept by every call. -/
theorem C13_branch_zero (h : s.Packed) (hc : crbaCheck s.par s.n = true) (hm : s.MassesOk) (d : Data K)
    {q : ℕ → K} (hq : s.At q) (h0 : s.BranchZero d.M) :
    s.BranchZero (crbaWorld s d q).M ∧ s.BranchZero (crbaLocal s d q).M := by
  have hc := (crbaCheck_iff h.par).1 hc
  refine ⟨fun i j a b c e f g k hk l hl => ?_, fun i j a b c e f g k hk l hl => ?_⟩
  · rw [crbaWorld_other h hc hm d q a b hk c e hl f]; exact h0 i j a b c e f g k hk l hl
  · rw [crbaLocal_other h hc hm d hq a b hk c e hl f]; exact h0 i j a b c e f g k hk l hl

/-- **Inverse dynamics through the mass matrix**: `rnea(q,v,a) = M(q) a + nle(q,v)`. -/
theorem C12_inverse_dynamics (h : s.Packed) (hc : crbaCheck s.par s.n = true) (hm : s.MassesOk) (d d' d'' : Data K)
    {q : ℕ → K} (hq : s.At q) (h0 : s.BranchZero d.M) (v a : ℕ → K) {r : ℕ} (hr : r < s.nv) :
    (rnea s d' q v a).tau r
      = (∑ c ∈ range s.nv, symUpper (crbaWorld s d q).M r c * a c) + (nonLinearEffects s d'' q v).nle r ∧
    (rnea s d' q v a).tau r
      = (∑ c ∈ range s.nv, symUpper (crbaLocal s d q).M r c * a c) + (nonLinearEffects s d'' q v).nle r := by
  have e := C12_affine h.wf d' d'' hq v a (Sys.unit r)
  rw [Sys.dotv_unit hr, Sys.dotv_unit hr, Sys.massForm_coord h.wf] at e
  constructor
  · rw [e]; congr 1
    exact sum_congr rfl fun c hcm => by rw [(C13_entries h hc hm d hq h0 hr (mem_range.1 hcm)).1]
  · rw [e]; congr 1
    exact sum_congr rfl fun c hcm => by rw [(C13_entries h hc hm d hq h0 hr (mem_range.1 hcm)).2]

/-- `wᵀ M(q) w` is the kinetic-energy form -/
theorem C13_quadratic (h : s.Packed) (hc : crbaCheck s.par s.n = true) (hm : s.MassesOk) (d : Data K) {q : ℕ → K}
    (hq : s.At q) (h0 : s.BranchZero d.M) (w : ℕ → K) :
    ∑ r ∈ range s.nv, ∑ c ∈ range s.nv, w r * symUpper (crbaWorld s d q).M r c * w c
      = (∑ i ∈ Ico 1 s.n, (s.V q w i).dot ((s.Y i).mul (s.V q w i)))
        + ∑ r ∈ range s.nv, w r * (s.arm r * w r) := by
  have : (∑ i ∈ Ico 1 s.n, (s.V q w i).dot ((s.Y i).mul (s.V q w i)))
        + ∑ r ∈ range s.nv, w r * (s.arm r * w r) = s.massForm q w w := rfl
  rw [this, Sys.massForm_coord h.wf, sum_comm]
  apply sum_congr rfl
  intro c hcm
  rw [← sum_mul]
  congr 1
  rw [Sys.massForm_symm, Sys.massForm_coord h.wf]
  apply sum_congr rfl
  intro r hrm
  rw [(C13_entries h hc hm d hq h0 (mem_range.1 hrm) (mem_range.1 hcm)).1, Sys.massForm_symm, mul_comm]

/-- physically consistent bodies and armatures give a positive semidefinite matrix -/
theorem C13_psd (h : s.Packed) (hc : crbaCheck s.par s.n = true) (hm : s.MassesOk) (d : Data K) {q : ℕ → K}
    (hq : s.At q) (h0 : s.BranchZero d.M) (hY : ∀ i, 1 ≤ i → i < s.n → (s.Y i).Psd)
    (ha : ∀ r, r < s.nv → 0 ≤ s.arm r) (w : ℕ → K) :
    0 ≤ ∑ r ∈ range s.nv, ∑ c ∈ range s.nv, w r * symUpper (crbaWorld s d q).M r c * w c := by
  rw [C13_quadratic h hc hm d hq h0]
  apply add_nonneg
  · apply sum_nonneg
    intro i hi
    rw [mem_Ico] at hi
    rw [← Inertia.vtiv_eq]
    exact (hY i hi.1 hi.2).vtiv_nonneg _
  · apply sum_nonneg
    intro r hr
    have := ha r (mem_range.1 hr)
    nlinarith [mul_self_nonneg (w r), mul_nonneg this (mul_self_nonneg (w r))]

/-- massive bodies and joints with independent columns give a positive definite energy -/
theorem Sys.massForm_pos (h : s.Packed) {q : ℕ → K}
    (hY : ∀ i, 1 ≤ i → i < s.n → 0 < (s.Y i).mass ∧ ∀ w, w ≠ 0 → 0 < (s.Y i).rotI.vtiv w)
    (hS : ∀ i, 1 ≤ i → i < s.n → ∀ x, comb (s.S q i) (s.jnv i) x = 0 → ∀ k, k < s.jnv i → x k = 0)
    (ha : ∀ r, r < s.nv → 0 ≤ s.arm r) (w : ℕ → K) (hw : ∃ r, r < s.nv ∧ w r ≠ 0) : 0 < s.massForm q w w := by
  have hpsd : ∀ i, 1 ≤ i → i < s.n → (s.Y i).Psd := fun i h1 hi =>
    ⟨(hY i h1 hi).1.le, fun w => by
      by_cases e : w = 0
      · subst e; simp [Sym3.vtiv]
      · exact ((hY i h1 hi).2 w e).le⟩
  have n1 : ∀ i ∈ Ico 1 s.n, 0 ≤ (s.V q w i).dot ((s.Y i).mul (s.V q w i)) := by
    intro i hi
    rw [mem_Ico] at hi
    rw [← Inertia.vtiv_eq]
    exact (hpsd i hi.1 hi.2).vtiv_nonneg _
  have n2 : 0 ≤ ∑ r ∈ range s.nv, w r * (s.arm r * w r) := by
    apply sum_nonneg
    intro r hr
    have := ha r (mem_range.1 hr)
    nlinarith [mul_self_nonneg (w r), mul_nonneg this (mul_self_nonneg (w r))]
  have he : s.massForm q w w = (∑ i ∈ Ico 1 s.n, (s.V q w i).dot ((s.Y i).mul (s.V q w i)))
      + ∑ r ∈ range s.nv, w r * (s.arm r * w r) := rfl
  rw [he]
  rcases (add_nonneg (sum_nonneg n1) n2).lt_or_eq with hlt | he
  · exact hlt
  exfalso
  have z1 : ∑ i ∈ Ico 1 s.n, (s.V q w i).dot ((s.Y i).mul (s.V q w i)) = 0 :=
    le_antisymm (by linarith) (sum_nonneg n1)
  have zV : ∀ i, i < s.n → s.V q w i = 0 := by
    intro i hi
    rcases Nat.eq_zero_or_pos i with rfl | h1
    · exact s.V_zero q w
    · have := (sum_eq_zero_iff_of_nonneg n1).1 z1 i (mem_Ico.2 ⟨h1, hi⟩)
      rw [← Inertia.vtiv_eq] at this
      exact Inertia.vtiv_eq_zero (hY i h1 hi).1 (hY i h1 hi).2 this
  obtain ⟨r, hr, hne⟩ := hw
  obtain ⟨i, k, h1, hi, hk, rfl⟩ := h.cover hr
  have e := s.V_step (q := q) (w := w) h1 (h.par.2 i h1 hi)
  rw [zV i hi, zV _ (lt_trans (h.par.2 i h1 hi) hi)] at e
  have e' : comb (s.S q i) (s.jnv i) (s.vs w i) = 0 := by
    change s.jvel q w i = 0
    simpa using e.symm
  exact hne (hS i h1 hi _ e' k hk)

/-- massive bodies and joints with independent columns give a positive definite matrix -/
theorem C13_pd (h : s.Packed) (hc : crbaCheck s.par s.n = true) (hm : s.MassesOk) (d : Data K) {q : ℕ → K}
    (hq : s.At q) (h0 : s.BranchZero d.M)
    (hY : ∀ i, 1 ≤ i → i < s.n → 0 < (s.Y i).mass ∧ ∀ w, w ≠ 0 → 0 < (s.Y i).rotI.vtiv w)
    (hS : ∀ i, 1 ≤ i → i < s.n → ∀ x, comb (s.S q i) (s.jnv i) x = 0 → ∀ k, k < s.jnv i → x k = 0)
    (ha : ∀ r, r < s.nv → 0 ≤ s.arm r) (w : ℕ → K) (hw : ∃ r, r < s.nv ∧ w r ≠ 0) :
    0 < ∑ r ∈ range s.nv, ∑ c ∈ range s.nv, w r * symUpper (crbaWorld s d q).M r c * w c := by
  rw [C13_quadratic h hc hm d hq h0]
  exact Sys.massForm_pos h hY hS ha w hw

/-- `computeKineticEnergy(q,v) = ½ vᵀ M v`, when every joint stores its velocity -/
theorem C13_kinetic_partial (h : s.Packed) (hc : crbaCheck s.par s.n = true) (hm : s.MassesOk) (d d' : Data K) {q : ℕ → K}
    (hq : s.At q) (h0 : s.BranchZero d.M) (v : ℕ → K) (hs : ∀ i, 1 ≤ i → i < s.n → (s.jt i).setsV = true) :
    (computeKineticEnergy s d' q v).kinetic_energy
      = 1 / 2 * ∑ r ∈ range s.nv, ∑ c ∈ range s.nv, v r * symUpper (crbaWorld s d q).M r c * v c := by
  rw [kinetic_eq h d' hq v hs, C13_quadratic h hc hm d hq h0]
  rfl

/-- `computePotentialEnergy(q) = - Σ_i m_i c_i · g` with `c_i` the centre of mass of body `i` in the world -/
theorem C43_potential (hp : ParOk s.par s.n) (d : Data K) (q : ℕ → K) :
    (computePotentialEnergy s d q).potential_energy
      = - ∑ i ∈ Ico 1 s.n, (s.Y i).mass * ((s.oM q i).actP (s.Y i).lever).dot s.grav.lin ∧
    (computePotentialEnergy s d q).potential_energy = s.potential q := by
  rw [potential_eq hp d q]
  have : ∀ i, (s.oM q i).actP (s.Y i).lever = (s.oM q i).trans + (s.oM q i).rot.mulVec (s.Y i).lever := by
    intro i; ext <;> simp [SE3.actP] <;> ring
  refine ⟨by simp only [this], by simp only [Sys.potential, this]⟩

/-- `computeMechanicalEnergy` is the sum of the two -/
theorem C43_mechanical (h : s.Packed) (d d' d'' : Data K) {q : ℕ → K} (hq : s.At q) (v : ℕ → K)
    (hs : ∀ i, 1 ≤ i → i < s.n → (s.jt i).setsV = true) :
    (computeMechanicalEnergy s d q v).mechanical_energy
      = (computeKineticEnergy s d' q v).kinetic_energy + (computePotentialEnergy s d'' q).potential_energy := by
  rw [mechanical_eq' h d hq v, kinetic_eq h d hq v hs, kinetic_eq h d' hq v hs, potential_eq h.par, potential_eq h.par]

/-- Every model built by construction calls, without mimic joint, accepted by the CRBA checker, satisfies the
identity (`C01` gives the tables). -/
theorem C12_reachable {p0 : Joint K} {m : Model K (Joint K)} (hm : Model.Reach p0 m) (hj : m.JointsOk)
    (hn : m.NoMimic) (j0 : Joint K) (g : Motion K) (hc : crbaCheck (m.toSys j0 g).par (m.toSys j0 g).n = true)
    (hmass : (m.toSys j0 g).MassesOk) (d' d'' : Data K) {q : ℕ → K} (hq : (m.toSys j0 g).At q) (v a : ℕ → K)
    {r : ℕ} (hr : r < m.nv) :
    (rnea (m.toSys j0 g) d' q v a).tau r
      = (∑ c ∈ range m.nv, symUpper (crbaWorld (m.toSys j0 g) Data.zero q).M r c * a c)
        + (nonLinearEffects (m.toSys j0 g) d'' q v).nle r :=
  (C12_inverse_dynamics (Model.toSys_packed hm.inv hj hn j0 g) hc hmass Data.zero d' d'' hq
    (fun _ _ _ _ _ _ _ _ _ _ _ _ => rfl) v a hr).1

end field

/-! ## the hypotheses are met -/
namespace Ex

theorem sysA_rest : sysA.RestBias qA := by
  intro i h1 hi
  change i < 5 at hi
  interval_cases i <;> rfl

/-- the hypotheses of `C12_reachable` hold for a model built by construction calls (six degrees of freedom) -/
example : Model.Reach (jtA 0) modA ∧ modA.JointsOk ∧ modA.NoMimic ∧
    crbaCheck (modA.toSys (jtA 0) gA).par (modA.toSys (jtA 0) gA).n = true ∧ (modA.toSys (jtA 0) gA).MassesOk ∧
    (modA.toSys (jtA 0) gA).At qA ∧ modA.nv = 6 :=
  ⟨modA_reach, modA_jointsOk, modA_noMimic, modA_check, modA_masses, modA_at, by decide +kernel⟩

theorem sysA_branch : sysA.BranchZero (Data.zero (K := ℚ)).M := fun _ _ _ _ _ _ _ _ _ _ _ _ => rfl

theorem iA_pd : 0 < iA.mass ∧ ∀ w, w ≠ 0 → 0 < iA.rotI.vtiv w := by
  refine ⟨by norm_num [iA], fun w hw => ?_⟩
  have h := Inertia.sqNorm_nonneg w
  have h' : w.sqNorm ≠ 0 := fun e => hw (Inertia.eq_zero_of_sqNorm e)
  have h := lt_of_le_of_ne h h'.symm
  simp only [iA, Sym3.vtiv, V3.sqNorm, V3.dot] at h ⊢
  nlinarith [sq_nonneg (w.x + w.y), sq_nonneg (w.y - w.z)]
theorem iB_pd : 0 < iB.mass ∧ ∀ w, w ≠ 0 → 0 < iB.rotI.vtiv w := by
  refine ⟨by norm_num [iB], fun w hw => ?_⟩
  have h := Inertia.sqNorm_nonneg w
  have h' : w.sqNorm ≠ 0 := fun e => hw (Inertia.eq_zero_of_sqNorm e)
  have h := lt_of_le_of_ne h h'.symm
  simp only [iB, Sym3.vtiv, V3.sqNorm, V3.dot] at h ⊢
  nlinarith [sq_nonneg (w.x + w.z)]

theorem sysA_cols : ∀ i, 1 ≤ i → i < sysA.n → ∀ x, comb (sysA.S qA i) (sysA.jnv i) x = 0 →
    ∀ k, k < sysA.jnv i → x k = 0 := by
  intro i h1 hi x hx k hk
  change i < 5 at hi
  interval_cases i
  · change k < 1 at hk
    obtain rfl : k = 0 := by omega
    simpa [comb, sysA, Sys.jnv, jtA, Sys.S, jRevolute, Motion.ext_iff, V3.ext_iff, cols, V3.axis] using hx
  · change k < 1 at hk
    obtain rfl : k = 0 := by omega
    simpa [comb, sysA, Sys.jnv, jtA, Sys.S, jPrismatic, Motion.ext_iff, V3.ext_iff, cols, V3.axis] using hx
  · change k < 3 at hk
    have := hx
    simp [comb, sysA, Sys.jnv, jtA, Sys.S, jSpherical, Motion.ext_iff, V3.ext_iff, cols, V3.axis, sum_range_succ] at this
    interval_cases k <;> simp_all
  · change k < 1 at hk
    obtain rfl : k = 0 := by omega
    have := hx
    simpa [comb, sysA, Sys.jnv, jtA, Sys.S, jRevoluteUnaligned, Motion.ext_iff, V3.ext_iff, cols, ax] using hx

end Ex

example : Ex.sysA.WF ∧ Ex.sysA.Packed ∧ crbaCheck Ex.sysA.par Ex.sysA.n = true ∧ Ex.sysA.MassesOk ∧
    Ex.sysA.At Ex.qA ∧ Ex.sysA.BranchZero (Data.zero (K := ℚ)).M ∧ Ex.sysA.RestBias Ex.qA ∧
    Ex.sysA.grav.ang = 0 ∧ Ex.sysA.Along Ex.sysAε Ex.qA Ex.vA Ex.dqA :=
  ⟨Ex.sysA_packed.wf, Ex.sysA_packed, by decide, Ex.sysA_masses, Ex.sysA_at, Ex.sysA_branch, Ex.sysA_rest, rfl,
    Ex.sysA_along⟩

example : (∀ i, 1 ≤ i → i < Ex.sysA.n → 0 < (Ex.sysA.Y i).mass ∧ ∀ w, w ≠ 0 → 0 < (Ex.sysA.Y i).rotI.vtiv w) ∧
    (∀ r, r < Ex.sysA.nv → 0 ≤ Ex.sysA.arm r) := by
  refine ⟨fun i _ _ => ?_, fun r _ => ?_⟩
  · simp only [Ex.sysA]
    split
    · exact Ex.iB_pd
    · exact Ex.iA_pd
  · simp only [Ex.sysA]; split <;> norm_num

/-- the bias of a kinematically consistent joint vanishes at rest -/
theorem C15_bias_at_rest {K : Type*} [CommRing K] {J : Joint K} {Jε : Joint K[ε]} {q dq : ℕ → K}
    (h : J.Kinematic Jε q (fun _ => 0) dq) : J.c q (fun _ => 0) = 0 := by
  rw [← h.bias]; simp

/-! ## findings -/
namespace Ex
/-- one joint, about a general axis, with rotor inertia -/
def sysU : Sys ℚ where
  n := 2
  par _ := 0
  pl _ := 1
  Y _ := iA
  jt _ := jRevoluteUnaligned ax
  iq _ := 0
  iv _ := 0
  nv := 1
  arm _ := 1
  grav := 0

/-- three prismatic joints along `x`; the third one is attached to the first one, so that the joints are
not in depth-first order -/
def sysN : Sys ℚ where
  n := 4
  par i := if i = 3 then 1 else 0
  pl _ := 1
  Y _ := iA
  jt _ := jPrismatic 0
  iq i := i - 1
  iv i := i - 1
  nv := 3
  arm _ := 0
  grav := 0
end Ex

set_option maxRecDepth 100000 in
/-- `computeKineticEnergy` misses the rotor inertia of joints about general axes, because their `calc(q,v)`
does not store the joint velocity the energy computation reads (`energy.hxx:33`,
`joint-revolute-unaligned.hpp:676-690`). -/
theorem C13_kinetic_unaligned_counterexample :
    Ex.sysU.Packed ∧ Ex.sysU.At (fun _ => 0) ∧
    (computeKineticEnergy Ex.sysU Data.zero (fun _ => 0) (fun _ => 1)).kinetic_energy
      ≠ 1 / 2 * Ex.sysU.massForm (fun _ => 0) (fun _ => 1) (fun _ => 1) := by
  refine ⟨⟨⟨by decide, fun i h1 hi => ?_⟩, fun i h1 hi => ?_, by rfl⟩,
    ⟨fun i _ _ => SE3.valid_one, fun i _ _ => jRevoluteUnaligned_ok (by norm_num [V3.sqNorm, Ex.ax]) _⟩, by decide +kernel⟩
  · change i < 2 at hi; interval_cases i; simp [Ex.sysU]
  · change i < 2 at hi; interval_cases i; rfl

set_option maxRecDepth 100000 in
/-- On joints added in another order than depth first (accepted by `addJoint`), `crba` couples joints of
different branches: `rnea ≠ M a + nle`. `CRBAChecker` (`crbaCheck`) detects these models. -/
theorem C12_order_counterexample :
    Ex.sysN.Packed ∧ Ex.sysN.MassesOk ∧ Ex.sysN.At (fun _ => 0) ∧ crbaCheck Ex.sysN.par Ex.sysN.n = false ∧
    (rnea Ex.sysN Data.zero (fun _ => 0) (fun _ => 0) (Sys.unit 1)).tau 0
      ≠ (∑ c ∈ range 3, symUpper (crbaWorld Ex.sysN Data.zero (fun _ => 0)).M 0 c * Sys.unit 1 c)
        + (nonLinearEffects Ex.sysN Data.zero (fun _ => 0) (fun _ => 0)).nle 0 := by
  refine ⟨⟨⟨by decide, fun i h1 hi => ?_⟩, fun i h1 hi => ?_, by rfl⟩, fun i _ _ => ?_,
    ⟨fun i _ _ => SE3.valid_one, fun i _ _ => jPrismatic_ok _ _⟩, by decide, by decide +kernel⟩
  · change i < 4 at hi; interval_cases i <;> simp [Ex.sysN]
  · change i < 4 at hi; interval_cases i <;> rfl
  · right; norm_num [Ex.sysN, Ex.iA, HasEps.eps]

end Pin
