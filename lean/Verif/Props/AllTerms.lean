import Verif.Algo.AllTermsLemmas
import Verif.Props.CentroidalDerivatives

/-!
# C56 — `computeAllTerms`

The documentation (`algorithm/compute-all-terms.hpp:12-22`) says that one call is equivalent to calling
`forwardKinematics`, `crba`, `nonLinearEffects`, `computeJointJacobians`, `centerOfMass`, `jacobianCenterOfMass`, `ccrba`,
`computeKineticEnergy`, `computePotentialEnergy` and `computeGeneralizedGravity`. Each theorem compares the fields left by
`computeAllTerms`, called on any `Data`, with those left by one of these functions, called on any other `Data`.
-/

namespace Pin
open Finset DualNumber TrivSqZeroExt
universe u

section
variable {K : Type u} [Field K] {s : Sys K}

/-- `computeMechanicalEnergy` only writes the three energies -/
theorem mechanical_record (hn : 1 ≤ s.n) (d : Data K) : computeMechanicalEnergyD s d
    = { d with
        kinetic_energy := (computeKineticEnergyD s d).kinetic_energy
        potential_energy := (computePotentialEnergyD s d).potential_energy
        mechanical_energy := (computeKineticEnergyD s d).kinetic_energy
          + (computePotentialEnergyD s d).potential_energy } := by
  rw [kinetic_loop hn, potential_loop hn]
  unfold computeMechanicalEnergyD
  have := fwd_ind (step := fun i d => potentialStep s i (kineticStep s i d)) (n := s.n)
    (d := { d with kinetic_energy := 0, potential_energy := 0 })
    (P := fun k (e : Data K) => e = { d with
      kinetic_energy := ∑ i ∈ Ico 1 k, ((s.Y i).vtiv (d.v i)
        + ∑ k ∈ range (s.jnv i), s.arm (s.iv i + k) * ((d.joints i).jv k * (d.joints i).jv k))
      potential_energy := - ∑ i ∈ Ico 1 k,
        (s.Y i).mass * ((d.oMi i).trans + (d.oMi i).rot.mulVec (s.Y i).lever).dot s.grav.lin }) hn (by simp)
    (by
      rintro i e h1 _ rfl
      unfold potentialStep kineticStep
      dsimp only
      rw [sum_Ico_succ_top h1, sum_Ico_succ_top h1, neg_add, ← sub_eq_add_neg, add_assoc])
  dsimp only
  rw [this]

theorem sum_unit {M : Type*} [AddCommGroup M] [Module K M] {n r : ℕ} (hr : r < n) (A : ℕ → M) :
    ∑ c ∈ range n, (Sys.unit r : ℕ → K) c • A c = A r := by
  rw [sum_eq_single r]
  · simp [Sys.unit]
  · intro c _ hc; simp [Sys.unit, hc]
  · intro hn; exact absurd (mem_range.2 hr) hn

/-- an inertia with non-zero mass is determined by its matrix -/
theorem inertia_matrix_inj {Y Z : Inertia K} (h : Y.matrix = Z.matrix) (hm : Y.mass ≠ 0) : Y = Z := by
  have em : Y.mass = Z.mass := congrArg (fun A : M6 K => A.ll.m11) h
  obtain ⟨m, l, I⟩ := Y
  obtain ⟨m', l', I'⟩ := Z
  dsimp only at em hm
  subst em
  have el : l = l' := by
    have h1 := congrArg (fun A : M6 K => A.al) h
    simp only [Inertia.matrix, M3.alphaSkew] at h1
    simp only [M3.mk.injEq] at h1
    obtain ⟨-, a, b, -, -, c, -, -, -⟩ := h1
    ext
    · simpa [hm] using c
    · simpa [hm] using b
    · simpa [hm] using a
  subst el
  have eI := congrArg (fun A : M6 K => A.aa) h
  simp only [Inertia.matrix, Sym3.matrix, M3.mk.injEq, Sym3.subAlphaSkewSquare] at eI
  congr 1
  obtain ⟨a, b, c, d, e, f, g, i, j⟩ := eI
  ext <;> simp_all
end

section ordered
variable {K : Type u} [Field K] [LinearOrder K] [IsStrictOrderedRing K] [HasEps K] {s : Sys K}

omit [IsStrictOrderedRing K] in
/-- everything that `computeAllTerms` leaves -/
theorem computeAllTerms_record (hn : 1 ≤ s.n) (d : Data K) (q v : ℕ → K) :
    computeAllTerms s d q v = { (catEnd s (catCore s d q v)) with
        kinetic_energy := (computeKineticEnergyD s (catEnd s (catCore s d q v))).kinetic_energy
        potential_energy := (computePotentialEnergyD s (catEnd s (catCore s d q v))).potential_energy
        mechanical_energy := (computeKineticEnergyD s (catEnd s (catCore s d q v))).kinetic_energy
          + (computePotentialEnergyD s (catEnd s (catCore s d q v))).potential_energy } :=
  mechanical_record hn _

/-- `forwardKinematics(q, v)`: placements and velocities are those it computes; the accelerations are those of
`forwardKinematics(q, v, 0)` -/
theorem C56_kinematics (h : s.Packed) (hc : crbaCheck s.par s.n = true) (hm : s.MassesOk) (d d' : Data K) {q : ℕ → K}
    (hq : s.At q) (v : ℕ → K) {i : ℕ} (h1 : 1 ≤ i) (hi : i < s.n) :
    (computeAllTerms s d q v).liMi i = (forwardKinematicsA s d' q v (fun _ => 0)).liMi i ∧
    (computeAllTerms s d q v).oMi i = (forwardKinematicsA s d' q v (fun _ => 0)).oMi i ∧
    (computeAllTerms s d q v).v i = (forwardKinematicsA s d' q v (fun _ => 0)).v i ∧
    (computeAllTerms s d q v).a i = (forwardKinematicsA s d' q v (fun _ => 0)).a i := by
  have hB := catCore_ok h ((crbaCheck_iff h.par).1 hc) hm d hq v
  obtain ⟨f1, f2, f3⟩ := fk2_ok h.par d' hq v (fun _ => 0)
  rw [computeAllTerms_record h.par.1]
  obtain ⟨a1, a2, -, -⟩ := hB.tv.pl i h1 hi
  obtain ⟨b1, b2, -, -⟩ := f1 i h1 hi
  exact ⟨a1.trans b1.symm, a2.trans b2.symm, (hB.tv.vel i h1 hi).1.trans (f2 i h1 hi).1.symm,
    (hB.acc i hi).trans (f3 i hi).symm⟩

/-- `computeJointJacobians` and `computeJointJacobiansTimeVariation` -/
theorem C56_jacobians (h : s.Packed) (hc : crbaCheck s.par s.n = true) (hm : s.MassesOk) (d d' d'' : Data K) {q : ℕ → K}
    (hq : s.At q) (v : ℕ → K) {r : ℕ} (hr : r < s.nv) :
    (computeAllTerms s d q v).J r = (computeJointJacobians s d' q).J r ∧
    (computeAllTerms s d q v).dJ r = (computeJointJacobiansTimeVariation s d'' q v).dJ r := by
  have hB := catCore_ok h ((crbaCheck_iff h.par).1 hc) hm d hq v
  obtain ⟨i, k, i1, hi, hk, rfl⟩ := h.cover hr
  rw [computeAllTerms_record h.par.1]
  exact ⟨(hB.tv.J i i1 hi k hk).trans ((jac_ok h d' q).2 i i1 hi k hk).symm,
    (hB.tv.dJ i i1 hi k hk).trans ((tv_ok h d'' hq v).dJ i i1 hi k hk).symm⟩

/-- `crba`, both conventions: same matrix, from the same matrix -/
theorem C56_mass_matrix (h : s.Packed) (hc : crbaCheck s.par s.n = true) (hm : s.MassesOk) (d d' : Data K) {q : ℕ → K}
    (hq : s.At q) (v : ℕ → K) (hM : d.M = d'.M) {r c : ℕ} (hr : r < s.nv) (hcv : c < s.nv) :
    (computeAllTerms s d q v).M r c = (crbaWorld s d' q).M r c ∧
    (computeAllTerms s d q v).M r c = (crbaLocal s d' q).M r c := by
  have hcm := (crbaCheck_iff h.par).1 hc
  have hB := (catCore_ok h hcm hm d hq v).cwb
  have hW := crbaWorld_cwb h hcm hm d' q
  have key : (computeAllTerms s d q v).M r c = (crbaWorld s d' q).M r c := by
    rw [computeAllTerms_record h.par.1]
    have e1 : (catEnd s (catCore s d q v)).M r c
        = if r = c then (catCore s d q v).M r c + s.arm r else (catCore s d q v).M r c := rfl
    dsimp only
    rw [e1]
    simp only [crbaWorld, addArmature]
    obtain ⟨i, k, i1, hi, hk, rfl⟩ := h.cover hr
    obtain ⟨j, l, j1, hj, hl, rfl⟩ := h.cover hcv
    have e2 : (catCore s d q v).M (s.iv i + k) (s.iv j + l)
        = (bwd (crbaWorldBwd s) s.n (fwd (crbaWorldFwd s q) s.n { d' with oYcrb := upd d'.oYcrb 0 0 })).M
          (s.iv i + k) (s.iv j + l) := by
      by_cases ha : anc s.par i j
      · rw [hB.M i i1 i1 hi k hk j hj ha l hl, hW.M i i1 i1 hi k hk j hj ha l hl]
      · rw [hB.M0 i i1 hi k hk j j1 hj ha l hl, hW.M0 i i1 hi k hk j j1 hj ha l hl, hM]
    rw [e2]
  exact ⟨key, key.trans (C14_conventions h hc hm d' d' hq rfl hr hcv).symm⟩

/-- the upper triangle of `M` is the mass matrix of the specification, rotor inertia included -/
theorem C56_mass_entries (h : s.Packed) (hc : crbaCheck s.par s.n = true) (hm : s.MassesOk) (d : Data K) {q : ℕ → K}
    (hq : s.At q) (v : ℕ → K) (h0 : s.BranchZero d.M) {r c : ℕ} (hr : r < s.nv) (hcv : c < s.nv) :
    symUpper (computeAllTerms s d q v).M r c = s.massForm q (Sys.unit r) (Sys.unit c) := by
  rw [← (C13_entries h hc hm d hq h0 hr hcv).1]
  unfold symUpper
  rw [(C56_mass_matrix h hc hm d d hq v rfl hr hcv).1, (C56_mass_matrix h hc hm d d hq v rfl hcv hr).1]

/-- `nonLinearEffects` -/
theorem C56_nle (h : s.Packed) (hc : crbaCheck s.par s.n = true) (hm : s.MassesOk) (d d' : Data K) {q : ℕ → K}
    (hq : s.At q) (v : ℕ → K) {r : ℕ} (hr : r < s.nv) :
    (computeAllTerms s d q v).nle r = (nonLinearEffects s d' q v).nle r := by
  have hB := catCore_ok h ((crbaCheck_iff h.par).1 hc) hm d hq v
  have e1 := hB.nle_power h (Sys.unit r)
  have e2 := nle_power h.wf d' hq v (Sys.unit r)
  rw [Sys.dotv_unit hr] at e1 e2
  rw [computeAllTerms_record h.par.1]
  exact e1.trans e2.symm

/-- the centroidal map left by `computeAllTerms` -/
theorem cat_Ag (h : s.Packed) (hc : crbaCheck s.par s.n = true) (hm : s.MassesOk) (hM : s.subMass 0 ≠ 0) (d : Data K)
    {q : ℕ → K} (hq : s.At q) (v w : ℕ → K) :
    ∑ r ∈ range s.nv, w r • (catEnd s (catCore s d q v)).Ag r = (s.hsum q w).atPoint (s.comPos q 0) := by
  have hB := catCore_ok h ((crbaCheck_iff h.par).1 hc) hm d hq v
  have hl := lever_com hM (hB.Y.root h.par)
  have e : (catEnd s (catCore s d q v)).Ag
      = aboutCols s.nv (catCore s d q v).Ag (upd (catCore s d q v).com 0 ((catCore s d q v).oYcrb 0).lever 0) := rfl
  rw [e, upd_self, hl]
  refine (mulCols_about _ _ _ w).trans ?_
  rw [Ag_mul h hq (fun i i1 hi k hk => hB.cwb.Ag i i1 i1 hi k hk)]

theorem cat_root (h : s.Packed) (hc : crbaCheck s.par s.n = true) (hm : s.MassesOk) (hM : s.subMass 0 ≠ 0) (d : Data K)
    {q : ℕ → K} (hq : s.At q) (v : ℕ → K) :
    (catEnd s (catCore s d q v)).mass 0 = s.subMass 0 ∧ (catEnd s (catCore s d q v)).com 0 = s.comPos q 0 ∧
    (catEnd s (catCore s d q v)).vcom 0 = s.comVel q v 0 ∧ (catCore s d q v).h 0 = s.hsum q v ∧
    (catCore s d q v).f 0 = d.f 0 + ∑ b ∈ Ico 1 s.n, s.ofg q v b := by
  have hB := catCore_ok h ((crbaCheck_iff h.par).1 hc) hm d hq v
  have hl := lever_com hM (hB.Y.root h.par)
  obtain ⟨m1, -⟩ := inertia_of_matrix (hB.Y.root h.par)
  have e1 : (catEnd s (catCore s d q v)).mass 0 = ((catCore s d q v).oYcrb 0).mass := upd_self (catCore s d q v).mass 0 _
  have e2 : (catEnd s (catCore s d q v)).com 0 = ((catCore s d q v).oYcrb 0).lever := upd_self (catCore s d q v).com 0 _
  have e3 : (catEnd s (catCore s d q v)).vcom 0
      = ((catCore s d q v).h 0).lin.divS ((catEnd s (catCore s d q v)).mass 0) := upd_self (catCore s d q v).vcom 0 _
  have hh : (catCore s d q v).h 0 = s.hsum q v := by
    rw [hB.h.root, if_pos rfl, zero_add, lforce_root h.par hq]; rfl
  refine ⟨e1.trans m1, e2.trans hl, ?_, hh, ?_⟩
  · rw [e3, e1, m1, hh, V3.divS_eq, vcom_eq h.par]
  · rw [hB.f.root, if_pos rfl, lforce_root h.par hq]

/-- `centerOfMass(q, v, computeSubtreeComs = true)`: masses, centres of mass and their velocities of all subtrees -/
theorem C56_com (h : s.Packed) (hc : crbaCheck s.par s.n = true) (hm : s.MassesOk) (hM : s.subMass 0 ≠ 0)
    (d d' : Data K) {q : ℕ → K} (hq : s.At q) (v : ℕ → K) {i : ℕ} (hi : i < s.n) (hMi : s.subMass i ≠ 0) :
    (computeAllTerms s d q v).mass i = (centerOfMassV s d' q v true).mass i ∧
    (computeAllTerms s d q v).com i = (centerOfMassV s d' q v true).com i ∧
    (computeAllTerms s d q v).vcom i = (centerOfMassV s d' q v true).vcom i := by
  have hB := catCore_ok h ((crbaCheck_iff h.par).1 hc) hm d hq v
  obtain ⟨a1, a2, a3, -⟩ := cat_root h hc hm hM d hq v
  obtain ⟨c1, c2, c3, -⟩ := C19_velocity h.par d' hq v true
  have o := com_out1 h.par d' hq v true
  rw [computeAllTerms_record h.par.1]
  dsimp only
  rcases Nat.eq_zero_or_pos i with rfl | h1
  · exact ⟨a1.trans (c3 0 hi).symm, a2.trans c1.symm, a3.trans c2.symm⟩
  · have e1 : (catEnd s (catCore s d q v)).mass i = (catCore s d q v).mass i :=
      upd_ne (catCore s d q v).mass _ (by omega)
    have e2 : (catEnd s (catCore s d q v)).com i = (catCore s d q v).com i := upd_ne (catCore s d q v).com _ (by omega)
    have e3 : (catEnd s (catCore s d q v)).vcom i = (catCore s d q v).vcom i :=
      upd_ne (catCore s d q v).vcom _ (by omega)
    refine ⟨?_, ?_, ?_⟩
    · rw [e1, hB.mass i h1 h1 hi, c3 i hi]
    · rw [e2, o.com i h1 hi, if_pos rfl, ← hB.com i h1 h1 hi, smul_smul, inv_mul_cancel₀ hMi, one_smul]
    · rw [e3, o.vcom rfl i h1 hi, if_pos rfl, hB.vcom i h1 h1 hi]

/-- `jacobianCenterOfMass`: same `Jcom`. The subtree centres of mass differ, see
`C56_subtree_jacobian_counterexample` -/
theorem C56_jacobian_com (h : s.Packed) (hc : crbaCheck s.par s.n = true) (hm : s.MassesOk) (hM : s.subMass 0 ≠ 0)
    (d d' : Data K) {q : ℕ → K} (hq : s.At q) (v : ℕ → K) (sub : Bool) {r : ℕ} (hr : r < s.nv) :
    (computeAllTerms s d q v).Jcom r = (jacobianCenterOfMass s d' q sub).Jcom r := by
  have e1 := com_mul h hq (Sys.unit r) (jacobianCenterOfMass_out h sub (fk0_ok h.par d' q)).Jcom
  rw [sum_unit hr] at e1
  have e2 := cat_Ag h hc hm hM d hq v (Sys.unit r)
  rw [sum_unit hr] at e2
  rw [computeAllTerms_record h.par.1]
  have e3 : (catEnd s (catCore s d q v)).Jcom r
      = ((catEnd s (catCore s d q v)).Ag r).lin.divS ((catEnd s (catCore s d q v)).mass 0) := rfl
  dsimp only
  rw [e3, e2, (cat_root h hc hm hM d hq v).1, V3.divS_eq]
  refine Eq.trans ?_ e1.symm
  rw [← hsum_lin h.par]
  rfl

/-- `ccrba`: centroidal map, centroidal momentum, and centroidal inertia -/
theorem C56_ccrba (h : s.Packed) (hc : crbaCheck s.par s.n = true) (hm : s.MassesOk) (hM : s.subMass 0 ≠ 0)
    (d d' : Data K) {q : ℕ → K} (hq : s.At q) (v : ℕ → K) :
    (∀ r, r < s.nv → (computeAllTerms s d q v).Ag r = (ccrba s d' q v).Ag r) ∧
    (computeAllTerms s d q v).hg = (ccrba s d' q v).hg ∧
    (computeAllTerms s d q v).Ig = (ccrba s d' q v).Ig ∧
    (computeAllTerms s d q v).com 0 = (ccrba s d' q v).com 0 := by
  have hB := catCore_ok h ((crbaCheck_iff h.par).1 hc) hm d hq v
  obtain ⟨a1, a2, a3, a4, -⟩ := cat_root h hc hm hM d hq v
  obtain ⟨k1, -, k3, -, k5⟩ := C20_ccrba h hm hM d' d' d' hq v
  rw [computeAllTerms_record h.par.1]
  refine ⟨fun r hr => ?_, ?_, ?_, a2.trans k5.symm⟩
  · have e1 := (C20_map h hm hM d' hq).1 (Sys.unit r)
    have e2 := cat_Ag h hc hm hM d hq v (Sys.unit r)
    rw [sum_unit hr] at e1 e2
    exact e2.trans (e1.symm.trans (k1 r hr).symm)
  · have e : (catEnd s (catCore s d q v)).hg
        = ((catCore s d q v).h 0).about ((catEnd s (catCore s d q v)).com 0) := rfl
    dsimp only
    rw [e, k3, a2, a4, Force.about_eq]
  · have e : (catEnd s (catCore s d q v)).Ig
        = ⟨((catCore s d q v).oYcrb 0).mass, 0, ((catCore s d q v).oYcrb 0).rotI⟩ := rfl
    have e' : (ccrba s d' q v).Ig = ⟨((ccrbaCore s d' q).oYcrb 0).mass, 0, ((ccrbaCore s d' q).oYcrb 0).rotI⟩ := rfl
    have hY := hB.Y.root h.par
    have hZ := (ccrbaCore_ok h hm d' q).Y.root h.par
    have : (catCore s d q v).oYcrb 0 = (ccrbaCore s d' q).oYcrb 0 :=
      inertia_matrix_inj (hY.trans hZ.symm) (by rw [(inertia_of_matrix hY).1]; exact hM)
    dsimp only
    rw [e, e', this]

/-- `dccrba`: same time variation of the centroidal map -/
theorem C56_dccrba (h : s.Packed) (hc : crbaCheck s.par s.n = true) (hm : s.MassesOk) (hM : s.subMass 0 ≠ 0)
    (d d' : Data K) {q : ℕ → K} (hq : s.At q) (v : ℕ → K) {r : ℕ} (hr : r < s.nv) :
    (computeAllTerms s d q v).dAg r = (dccrba s d' q v).dAg r := by
  have hB := catCore_ok h ((crbaCheck_iff h.par).1 hc) hm d hq v
  obtain ⟨a1, a2, a3, -⟩ := cat_root h hc hm hM d hq v
  have e : (catEnd s (catCore s d q v)).dAg = daboutCols s.nv
      (aboutCols s.nv (catCore s d q v).Ag ((catEnd s (catCore s d q v)).com 0)) (catCore s d q v).dAg
      ((catEnd s (catCore s d q v)).com 0) ((catEnd s (catCore s d q v)).vcom 0) := rfl
  have e1 : ∑ c ∈ range s.nv, (Sys.unit r : ℕ → K) c • (catEnd s (catCore s d q v)).dAg c
      = ∑ c ∈ range s.nv, (Sys.unit r : ℕ → K) c • (dccrba s d' q v).dAg c := by
    rw [dccrba_shift h hm hM d' hq, dccrba_dAg h hm hM d' hq, e, a2, a3]
    refine (mulCols_dabout _ _ _ _ _ _).trans ?_
    rw [Ag_mul h hq (fun i i1 hi k hk => hB.cwb.Ag i i1 i1 hi k hk),
      dAg_mul h hq (fun i i1 hi k hk => hB.dAg i i1 i1 hi k hk)]
  rw [sum_unit hr, sum_unit hr] at e1
  rw [computeAllTerms_record h.par.1]
  exact e1

/-- `computeGeneralizedGravity`, when the gravity field has no angular part (it has none by default) -/
theorem C56_gravity (h : s.Packed) (hc : crbaCheck s.par s.n = true) (hm : s.MassesOk) (hM : s.subMass 0 ≠ 0)
    (d d' : Data K) {q : ℕ → K} (hq : s.At q) (v : ℕ → K) (hg : s.grav.ang = 0) {r : ℕ} (hr : r < s.nv) :
    (computeAllTerms s d q v).g r = (computeGeneralizedGravity s d' q).g r := by
  have e1 := grav_power h.wf d' q (Sys.unit r)
  rw [Sys.dotv_unit hr] at e1
  have e2 := cat_Ag h hc hm hM d hq v (Sys.unit r)
  rw [sum_unit hr] at e2
  rw [computeAllTerms_record h.par.1, e1]
  have e3 : (catEnd s (catCore s d q v)).g r = -((catEnd s (catCore s d q v)).Ag r).lin.dot s.grav.lin := rfl
  dsimp only
  rw [e3, e2]
  have e4 : ∀ i ∈ Ico 1 s.n, (s.V q (Sys.unit r) i).dot ((s.Y i).mul (s.base q i))
      = -(s.grav.dot ((s.oM q i).actF ((s.Y i).mul (s.V q (Sys.unit r) i)))) := by
    intro i hi
    have hv := s.oM_valid h.par hq i (mem_Ico.1 hi).2
    have eb : s.base q i = (s.oM q i).actInv (-s.grav) := s.base_eq h.par hq (-s.grav) i (mem_Ico.1 hi).2
    rw [eb]
    have f1 : ∀ x y : Motion K, x.dot ((s.Y i).mul y) = y.dot ((s.Y i).mul x) := by
      intro x y; simp [Motion.dot, Inertia.mul, Sym3.mulVec, V3.dot, V3.cross]; ring
    rw [f1]
    generalize (s.Y i).mul (s.V q (Sys.unit r) i) = F
    simp [Motion.dot, SE3.actInv, SE3.actF, M3.mulVec, M3.tr, V3.dot, V3.cross]
    ring
  rw [sum_congr rfl e4, sum_neg_distrib]
  congr 1
  have e5 : ∀ (t : Finset ℕ) (g : ℕ → Force K), ∑ i ∈ t, s.grav.dot (g i) = s.grav.dot (∑ i ∈ t, g i) := by
    intro t g
    classical
    induction t using Finset.induction_on with
    | empty => simp [Motion.dot, V3.dot]
    | insert a t ha ih => rw [sum_insert ha, sum_insert ha, ih]; simp [Motion.dot, V3.dot]; ring
  rw [e5]
  change (s.hsum q (Sys.unit r)).lin.dot s.grav.lin = s.grav.dot (s.hsum q (Sys.unit r))
  generalize s.hsum q (Sys.unit r) = F
  simp only [Motion.dot, hg]
  simp [V3.dot]

/-- `computeKineticEnergy`, `computePotentialEnergy` and `computeMechanicalEnergy`, called on the same `Data` -/
theorem C56_energies (h : s.Packed) (hc : crbaCheck s.par s.n = true) (hm : s.MassesOk) (d d' : Data K) {q : ℕ → K}
    (hq : s.At q) (v : ℕ → K) :
    (computeAllTerms s d q v).kinetic_energy = (computeKineticEnergy s d q v).kinetic_energy ∧
    (computeAllTerms s d q v).potential_energy = (computePotentialEnergy s d' q).potential_energy ∧
    (computeAllTerms s d q v).mechanical_energy = (computeMechanicalEnergy s d q v).mechanical_energy := by
  have hB := catCore_ok h ((crbaCheck_iff h.par).1 hc) hm d hq v
  obtain ⟨f1, f2⟩ := fk1_ok h.par d hq v
  have k1 : (computeKineticEnergyD s (catEnd s (catCore s d q v))).kinetic_energy
      = (computeKineticEnergy s d q v).kinetic_energy := by
    unfold computeKineticEnergy
    rw [kinetic_loop h.par.1, kinetic_loop h.par.1]
    congr 1
    apply sum_congr rfl
    intro i hi
    obtain ⟨h1, hi⟩ := mem_Ico.1 hi
    have e1 : (catEnd s (catCore s d q v)).v i = (forwardKinematicsV s d q v).v i :=
      (hB.tv.vel i h1 hi).1.trans (f2 i h1 hi).1.symm
    have e2 : ((catEnd s (catCore s d q v)).joints i).jv = ((forwardKinematicsV s d q v).joints i).jv :=
      (hB.jv i h1 hi).trans (fk1_jv h.par.1 d q v i h1 hi).symm
    rw [e1, e2]
  have k2 : (computePotentialEnergyD s (catEnd s (catCore s d q v))).potential_energy
      = (computePotentialEnergy s d' q).potential_energy := by
    rw [potential_loop h.par.1, potential_eq h.par]
    congr 1
    apply sum_congr rfl
    intro i hi
    obtain ⟨h1, hi⟩ := mem_Ico.1 hi
    have e1 : (catEnd s (catCore s d q v)).oMi i = s.oM q i := (hB.tv.pl i h1 hi).2.1
    rw [e1]
  rw [computeAllTerms_record h.par.1]
  refine ⟨k1, k2, ?_⟩
  dsimp only
  rw [mechanical_eq' h d hq v, k1, k2, potential_eq h.par, potential_eq h.par]

/-- `getCenterOfMassVelocityDerivatives` may be called after `computeAllTerms(q, v)` and returns the derivative of the
velocity of the centre of mass -/
theorem C56_com_velocity_derivative (h : s.Packed) (hc : crbaCheck s.par s.n = true) (hm : s.MassesOk)
    (hM : ∀ i, i < s.n → s.subMass i ≠ 0) {sε : Sys K[ε]} {q w dq : ℕ → K} (hal : s.Along sε q w dq) (hcs : s.ConstS sε)
    (hq : s.At q) (d : Data K) (v : ℕ → K) (x : ℕ → V3 K) {c : V3 K[ε]}
    (hcc : sε.subMass 0 • c = sε.msum (sε.wcom (perturb q dq) (perturb v (fun _ => 0))) 0) :
    ∑ r ∈ range s.nv, w r • getCenterOfMassVelocityDerivatives s (computeAllTerms s d q v) x r = c.map snd := by
  have hB := catCore_ok h ((crbaCheck_iff h.par).1 hc) hm d hq v
  have o := fun {i} hi => C56_com h hc hm (hM 0 h.par.1) d d hq v (i := i) hi (hM i hi)
  have o1 := com_out1 h.par d hq v true
  refine comVelDer_of h (hM 0 h.par.1) hal hcs hq ⟨?_, ?_, ?_, ?_, ?_, ?_, ?_⟩ x hcc
  · intro i h1 hi
    rw [computeAllTerms_record h.par.1]; exact (hB.tv.vel i h1 hi).1
  · intro i h1 hi
    rw [computeAllTerms_record h.par.1]; exact (hB.tv.vel i h1 hi).2.1
  · intro i h1 hi
    rw [computeAllTerms_record h.par.1]; exact (hB.tv.pl i h1 hi).2.2.1
  · intro i h1 hi
    rw [computeAllTerms_record h.par.1]; exact (hB.tv.pl i h1 hi).2.1
  · intro i hi
    rw [(o hi).1, o1.mass i hi]
  · intro i h1 hi
    rw [(o hi).2.1, o1.com i h1 hi, if_pos rfl, smul_smul, mul_inv_cancel₀ (hM i hi), one_smul]
  · intro i h1 hi
    rw [(o hi).2.2, o1.vcom rfl i h1 hi, if_pos rfl, smul_smul, mul_inv_cancel₀ (hM i hi), one_smul]

/-- `dhg` is what `computeCentroidalMomentumTimeVariation(q, v, 0)` returns, minus the weight of the robot, plus whatever
`data.f[0]` contained, moved to the centre of mass. Missing for the property: equality with the rate of change of the
momentum, false by `C56_dhg_gravity_counterexample` and `C56_dhg_history_counterexample` -/
theorem C56_dhg_partial (h : s.Packed) (hc : crbaCheck s.par s.n = true) (hm : s.MassesOk) (hM : s.subMass 0 ≠ 0)
    (d d' : Data K) {q : ℕ → K} (hq : s.At q) (v : ℕ → K) (hg : s.grav.ang = 0) :
    (computeAllTerms s d q v).dhg = (computeCentroidalMomentumTimeVariation s d' q v (fun _ => 0)).dhg
      - ⟨s.subMass 0 • s.grav.lin, 0⟩ + (d.f 0).atPoint (s.comPos q 0) := by
  have hB := catCore_ok h ((crbaCheck_iff h.par).1 hc) hm d hq v
  obtain ⟨a1, a2, a3, a4, a5⟩ := cat_root h hc hm hM d hq v
  have hY := hB.Y.root h.par
  have hl := lever_com hM hY
  rw [computeAllTerms_record h.par.1, (C45_dhg h.par d' d' hq v _).1]
  have e : (catEnd s (catCore s d q v)).dhg
      = ((catCore s d q v).f 0).about ((catEnd s (catCore s d q v)).com 0) := rfl
  dsimp only
  rw [e, a2, a5, Force.about_eq]
  have e2 : ∑ b ∈ Ico 1 s.n, s.ofg q v b = s.dhsum q v (fun _ => 0) - (s.oYm q 0).mulMF s.grav := by
    unfold Sys.oYm Sys.dhsum
    rw [subtree_root h.par, M6.sum_mulMF, ← sum_sub_distrib]
    apply sum_congr rfl
    intro b hb
    have hbn := (mem_Ico.1 hb).2
    unfold Sys.ofg Sys.F
    rw [Sys.A_base h.par (-s.grav) q v _ b hbn, Sys.base_eq h.par hq (-s.grav) b hbn]
    have hn : (s.oI q b).mulMF s.grav = -(s.oM q b).actF ((s.Y b).mul ((s.oM q b).actInv (-s.grav))) := by
      rw [← s.oI_act h.par hq hbn, SE3.act_actInv (s.oM_valid h.par hq b hbn)]
      have : (s.oI q b).mulMF (-s.grav) = -(s.oI q b).mulMF s.grav := map_neg (s.oI q b).lin _
      rw [this, neg_neg]
    rw [hn]
    generalize (s.oM q b).actInv (-s.grav) = z
    generalize s.A 0 q v (fun _ => 0) b = A
    generalize (s.V q v b).crossF ((s.Y b).mul (s.V q v b)) = C
    rw [sub_neg_eq_add, ← SE3.actF_add]
    congr 1
    ext <;> simp [Inertia.mul, Sym3.mulVec] <;> ring
  have e3 : ((s.oYm q 0).mulMF s.grav).atPoint (s.comPos q 0) = ⟨s.subMass 0 • s.grav.lin, 0⟩ := by
    rw [← hY, ← hl, Inertia.matrix_mulMF, ← (inertia_of_matrix hY).1]
    generalize (catCore s d q v).oYcrb 0 = Y
    ext <;> simp [Inertia.mul, Force.atPoint, Sym3.mulVec, hg] <;> ring
  rw [e2, ← e3]
  have lin : ∀ f : Force K, f.atPoint (s.comPos q 0) = aboutLin (s.comPos q 0) f := fun _ => rfl
  rw [lin, lin, lin, lin, map_add, map_sub]
  abel
end ordered

/-! ## the hypotheses are met -/
example := C56_kinematics Ex.sysA_packed (by decide) Ex.sysA_masses Data.zero Data.zero Ex.sysA_at Ex.vA (i := 3) (by decide) (by decide)
example := C56_jacobians Ex.sysA_packed (by decide) Ex.sysA_masses Data.zero Data.zero Data.zero Ex.sysA_at Ex.vA (r := 4) (by decide)
example := C56_mass_matrix Ex.sysA_packed (by decide) Ex.sysA_masses Data.zero Data.zero Ex.sysA_at Ex.vA rfl (r := 1) (c := 4) (by decide) (by decide)
example := C56_mass_entries Ex.sysA_packed (by decide) Ex.sysA_masses Data.zero Ex.sysA_at Ex.vA Ex.branchZero_zero (r := 1) (c := 4)
  (by decide) (by decide)
example := C56_nle Ex.sysA_packed (by decide) Ex.sysA_masses Data.zero Data.zero Ex.sysA_at Ex.vA (r := 4) (by decide)
example := C56_com Ex.sysA_packed (by decide) Ex.sysA_masses (Ex.sysA_subMass 0 (by decide)) Data.zero Data.zero Ex.sysA_at Ex.vA (i := 3) (by decide)
  (Ex.sysA_subMass 3 (by decide))
example := C56_jacobian_com Ex.sysA_packed (by decide) Ex.sysA_masses (Ex.sysA_subMass 0 (by decide)) Data.zero Data.zero Ex.sysA_at Ex.vA true (r := 4)
  (by decide)
example := C56_ccrba Ex.sysA_packed (by decide) Ex.sysA_masses (Ex.sysA_subMass 0 (by decide)) Data.zero Data.zero Ex.sysA_at Ex.vA
example := C56_dccrba Ex.sysA_packed (by decide) Ex.sysA_masses (Ex.sysA_subMass 0 (by decide)) Data.zero Data.zero Ex.sysA_at Ex.vA (r := 4) (by decide)
example := C56_gravity Ex.sysA_packed (by decide) Ex.sysA_masses (Ex.sysA_subMass 0 (by decide)) Data.zero Data.zero Ex.sysA_at Ex.vA (by decide) (r := 4)
  (by decide)
example := C56_energies Ex.sysA_packed (by decide) Ex.sysA_masses Data.zero Data.zero Ex.sysA_at Ex.vA
example := fun c => C56_com_velocity_derivative Ex.sysA_packed (by decide) Ex.sysA_masses Ex.sysA_subMass Ex.sysA_along
  Ex.sysA_constS Ex.sysA_at Data.zero Ex.wA' (fun _ => 0) (c := c)
example := C56_dhg_partial Ex.sysA_packed (by decide) Ex.sysA_masses (Ex.sysA_subMass 0 (by decide)) Data.zero Data.zero Ex.sysA_at Ex.vA (by decide)

/-! ## findings -/

set_option maxRecDepth 100000 in
/-- `computeAllTerms` on a fresh `Data` leaves in `data.dhg` the rate of change of the centroidal momentum minus the weight
of the robot: it differs from what `computeCentroidalMomentumTimeVariation(q, v, 0)` stores in the same field -/
theorem C56_dhg_gravity_counterexample :
    (computeAllTerms Ex.sysA Data.zero Ex.qA Ex.vA).dhg
      ≠ (computeCentroidalMomentumTimeVariation Ex.sysA Data.zero Ex.qA Ex.vA (fun _ => 0)).dhg := by
  decide +kernel

set_option maxRecDepth 100000 in
/-- `computeAllTerms` accumulates the forces in `data.f[0]` and never resets it: a second call with the same arguments
leaves a different `data.dhg` -/
theorem C56_dhg_history_counterexample :
    (computeAllTerms Ex.sysA (computeAllTerms Ex.sysA Data.zero Ex.qA Ex.vA) Ex.qA Ex.vA).dhg
      ≠ (computeAllTerms Ex.sysA Data.zero Ex.qA Ex.vA).dhg := by
  decide +kernel

set_option maxRecDepth 100000 in
/-- `computeAllTerms` is documented as equivalent to a call to `jacobianCenterOfMass`, but leaves the centres of mass of
the subtrees in the joint frames: `getJacobianSubtreeCenterOfMass` called after it returns another matrix than after
`jacobianCenterOfMass` -/
theorem C56_subtree_jacobian_counterexample :
    getJacobianSubtreeCenterOfMass Ex.sysA (computeAllTerms Ex.sysA Data.zero Ex.qA Ex.vA) 3 (fun _ => 0) 0
      ≠ getJacobianSubtreeCenterOfMass Ex.sysA (jacobianCenterOfMass Ex.sysA Data.zero Ex.qA true) 3 (fun _ => 0) 0 := by
  decide +kernel

end Pin
