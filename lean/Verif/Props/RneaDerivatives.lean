import Verif.Algo.GravDerLemmas
import Verif.Props.KinDerivatives

/-!
# C53: partial derivatives of the inverse dynamics

The matrices the derivative functions return, applied to a direction `(w, δv, δa)`, are compared with the derivative of
the torque that `rnea` (`computeGeneralizedGravity`, `computeStaticTorque`) returns when it is run on `(q, v, a)` moved in
that direction: `sε` is the model over dual numbers, `perturb x δx` is `x + ε δx`, and `snd` takes the coefficient of `ε`.
`dq` is the derivative of the configuration vector when the joint velocity is `w` (`Sys.Along`).

`symUpper` completes an upper triangle: "as for `crba`, only the upper triangular part of `rnea_partial_da` is filled".
`Sys.BranchZero`: the entries between different branches of the output matrices are zero before the call, in particular
when the matrices are zero, as the documentation asks.

`Sys.ConstS`: no joint has a motion subspace that depends on the configuration.
-/

namespace Pin
open Finset DualNumber TrivSqZeroExt
universe u
variable {K : Type u} [Field K] [LinearOrder K] [IsStrictOrderedRing K] [HasEps K] {s : Sys K} {sε : Sys K[ε]}
  {q w dq : ℕ → K}

/-! ## from entries to matrices -/

theorem Sys.eQ_off (q v a : ℕ → K) (fext : ℕ → Force K) {i j : ℕ} (h1 : ¬ anc s.par i j) (h2 : ¬ anc s.par j i)
    (k l : ℕ) : s.eQ q v a fext i k j l = 0 := by
  unfold Sys.eQ; rw [if_neg h1, if_neg h2]

theorem Sys.eD_off (q v : ℕ → K) {i j : ℕ} (h1 : ¬ anc s.par i j) (h2 : ¬ anc s.par j i)
    (k l : ℕ) : s.eD q v i k j l = 0 := by
  unfold Sys.eD; rw [if_neg h1, if_neg h2]

theorem Sys.eA_off (q : ℕ → K) {i j : ℕ} (h1 : ¬ anc s.par i j) (h2 : ¬ anc s.par j i)
    (k l : ℕ) : s.eA q i k j l = 0 := by
  unfold Sys.eA; rw [if_neg h1, if_neg h2]

theorem DerC.all (hp : ParOk s.par s.n) {E : ℕ → ℕ → ℕ → ℕ → K} {C0 C : ℕ → ℕ → K} (hC : DerC s E C0 1 C)
    (h0 : s.BranchZero C0) (hE : ∀ i j, ¬ anc s.par i j → ¬ anc s.par j i → ∀ k l, E i k j l = 0)
    {i k j l : ℕ} (i1 : 1 ≤ i) (hi : i < s.n) (hk : k < s.jnv i) (j1 : 1 ≤ j) (hj : j < s.n) (hl : l < s.jnv j) :
    C (s.iv i + k) (s.iv j + l) = E i k j l := by
  by_cases ha : anc s.par i j
  · exact hC.row i i1 i1 hi k hk j hj ha l hl
  · by_cases hb : anc s.par j i
    · have hne : i ≠ j := by rintro rfl; exact ha hb
      exact hC.low j j1 j1 hj l hl i hi hb hne k hk
    · rw [hC.other i i1 hi k hk j j1 hj ha hb l hl, h0 i j i1 hi j1 hj ha hb k hk l hl, hE i j ha hb]

theorem RowC.all (hp : ParOk s.par s.n) {E : ℕ → ℕ → ℕ → ℕ → K} {C0 C : ℕ → ℕ → K} (hC : RowC s E C0 1 C)
    (h0 : s.BranchZero C0) (hE : ∀ i j, ¬ anc s.par i j → ¬ anc s.par j i → ∀ k l, E i k j l = 0)
    {i k j l : ℕ} (i1 : 1 ≤ i) (hi : i < s.n) (hk : k < s.jnv i) (j1 : 1 ≤ j) (hj : j < s.n) (hl : l < s.jnv j) :
    C (s.iv i + k) (s.iv j + l) = E i k j l := by
  by_cases hab : anc s.par i j ∨ anc s.par j i
  · exact hC.row i i1 i1 hi k hk j j1 hj hab l hl
  · push Not at hab
    rw [hC.other i i1 hi k hk j j1 hj hab.1 hab.2 l hl, h0 i j i1 hi j1 hj hab.1 hab.2 k hk l hl, hE i j hab.1 hab.2]

/-- entry of `rnea_partial_da` without armature, and the kinetic-energy form -/
theorem Sys.massForm_eA (h : s.Packed) (hq : s.At q) {i k j l : ℕ} (i1 : 1 ≤ i) (hi : i < s.n) (hk : k < s.jnv i)
    (j1 : 1 ≤ j) (hj : j < s.n) (hl : l < s.jnv j) :
    s.massForm q (Sys.unit (s.iv i + k)) (Sys.unit (s.iv j + l))
      = s.eA q i k j l + if s.iv i + k = s.iv j + l then s.arm (s.iv i + k) else 0 := by
  unfold Sys.eA
  by_cases ha : anc s.par i j
  · rw [if_pos ha, Sys.massForm_entry h hq i1 hi hk j1 hj hl ha]
  · rw [if_neg ha]
    by_cases hb : anc s.par j i
    · rw [if_pos hb, Sys.massForm_symm, Sys.massForm_entry h hq j1 hj hl i1 hi hk hb,
        M6.dot_symm' (Sys.oYm_symm q i)]
      congr 1
      by_cases e : s.iv i + k = s.iv j + l
      · rw [if_pos e, if_pos e.symm, e]
      · rw [if_neg e, if_neg (Ne.symm e)]
    · rw [if_neg hb, Sys.massForm_unrelated h hq i1 hi hk j1 hj hl ha hb, if_neg, add_zero]
      intro e
      have := (h.inj i1 hi j1 hj hk hl e).1
      subst this
      exact ha (anc_refl h.par hi)

/-- completing the upper triangle of `rnea_partial_da` -/
theorem UpC.sym (h : s.Packed) (hq : s.At q) {C0 C : ℕ → ℕ → K} (hC : UpC s (s.eA q) C0 1 C) (h0 : s.BranchZero C0)
    {r c : ℕ} (hr : r < s.nv) (hc : c < s.nv) :
    symUpper (addDiag s.nv C s.arm) r c = s.massForm q (Sys.unit r) (Sys.unit c) := by
  refine crba_sym h hq (M0 := addDiag s.nv C0 s.arm) ?_ ?_ ?_ hr hc
  · intro i j i1 hi j1 hj n1 n2 k hk l hl
    unfold addDiag
    rw [if_neg, h0 i j i1 hi j1 hj n1 n2 k hk l hl]
    rintro ⟨e, -⟩
    have := (h.inj i1 hi j1 hj hk hl e).1
    subst this
    exact n1 (anc_refl h.par hi)
  · intro i k j l i1 hi hk hj hl ha
    have j1 : 1 ≤ j := le_trans i1 (anc_le h.par j hj ha)
    have hrow : s.iv i + k < s.nv := by have := h.le_nv i1 hi; omega
    rw [Sys.massForm_eA h hq i1 hi hk j1 hj hl]
    unfold addDiag
    rw [hC.row i i1 i1 hi k hk j hj ha l hl]
    by_cases e : s.iv i + k = s.iv j + l
    · rw [if_pos ⟨e, hrow⟩, if_pos e]
    · rw [if_neg (fun x => e x.1), if_neg e, add_zero]
  · intro i k j l i1 hi hk j1 hj hl ha
    unfold addDiag
    rw [hC.other i i1 hi k hk j j1 hj ha l hl]

/-- torque of `rnea` with external forces, on coordinate `k` of joint `i` -/
theorem rneaFext_entry (h : s.Packed) (hq : s.At q) (d : Data K) (v a : ℕ → K) (fext : ℕ → Force K) {i k : ℕ}
    (i1 : 1 ≤ i) (hi : i < s.n) (hk : k < s.jnv i) :
    (rneaFext s d q v a fext).tau (s.iv i + k)
      = (s.Jc q i k).dot (s.oFm q v a fext i) + s.arm (s.iv i + k) * a (s.iv i + k) := by
  classical
  have hr : s.iv i + k < s.nv := by have := h.le_nv i1 hi; omega
  have e := rneaFext_power h.wf d hq v a fext (Sys.unit (s.iv i + k))
  rw [Sys.dotv_unit hr, Sys.dotv_unit hr] at e
  rw [e]
  congr 1
  unfold Sys.oFm
  change _ = Sys.dotF (s.Jc q i k) _
  rw [map_sum]
  change _ = ∑ b ∈ (Ico 1 s.n).filter (fun b => anc s.par i b), _
  rw [sum_filter]
  apply sum_congr rfl
  intro b hb
  obtain ⟨b1, hb⟩ := mem_Ico.1 hb
  have hov := s.oM_valid h.par hq b hb
  have e2 : (s.V q (Sys.unit (s.iv i + k)) b).dot (s.F (-s.grav) q v a b - fext b)
      = (s.oV q (Sys.unit (s.iv i + k)) b).dot (s.oF (-s.grav) q v a fext b) := by
    unfold Sys.oV Sys.oF; rw [SE3.dot_act_actF hov]
  rw [e2, Sys.oV_unit h hq i1 hi hk hb]
  split
  · rfl
  · simp [Motion.dot, V3.dot]

section
variable {K : Type u} [CommRing K] {s : Sys K}

theorem rneaFext_zero (hw : s.WF) (d d' : Data K) {q : ℕ → K} (hq : s.At q) (v a : ℕ → K) {r : ℕ} (hr : r < s.nv) :
    (rneaFext s d q v a (fun _ => 0)).tau r = (rnea s d' q v a).tau r := by
  rw [C15_fext hw d d' hq v a (fun _ => 0) hr]
  simp [Motion.dot, V3.dot]

/-- the static torque is the inverse dynamics at rest with the same external forces -/
theorem static_rest (hw : s.WF) (d d' : Data K) {q : ℕ → K} (hq : s.At q) (hb : s.RestBias q) (fext : ℕ → Force K)
    {r : ℕ} (hr : r < s.nv) :
    (computeStaticTorque s d q fext).tau r = (rneaFext s d' q (fun _ => 0) (fun _ => 0) fext).tau r := by
  rw [C15_static hw d d' q fext hr, C15_fext hw d' d' hq _ _ fext hr, (C15_gravity hw d' d' d' hq hb hr).2]

end

/-- the model over dual numbers -/
theorem Sys.Along.wfε (h : s.Along sε q w dq) (hk : s.Packed) : sε.WF := by
  refine ⟨?_, ?_⟩
  · rw [h.par, h.n]; exact hk.par
  · intro i h1 hi
    rw [h.iv, h.jnv, h.nv]; exact hk.le_nv h1 (by rw [← h.n]; exact hi)

theorem Sys.ConstS.rest (hc : s.ConstS sε) (q : ℕ → K) : s.RestBias q := fun i h1 hi => hc.c i h1 hi q _

theorem Sys.ConstS.restε (hc : s.ConstS sε) (h : s.Along sε q w dq) (x : ℕ → K[ε]) : sε.RestBias x :=
  fun i h1 hi => hc.cε i h1 (by rw [← h.n]; exact hi) x _

theorem perturb_zero : (perturb (fun _ : ℕ => (0 : K)) (fun _ => 0)) = fun _ => (0 : K[ε]) := by
  funext k; unfold perturb; simp

/-- the three matrices from their entries -/
theorem rneaDer_sum (h : s.Packed) (hal : s.Along sε q w dq) (hc : s.ConstS sε) (hq : s.At q)
    (hqε : sε.At (perturb q dq)) (dε : Data K[ε]) (v δv a δa : ℕ → K) (fext : ℕ → Force K) {Q D A Q0 D0 A0 : ℕ → ℕ → K}
    (hQ : DerC s (s.eQ q v a fext) Q0 1 Q) (hD : DerC s (s.eD q v) D0 1 D) (hA : UpC s (s.eA q) A0 1 A)
    (zQ : s.BranchZero Q0) (zD : s.BranchZero D0) (zA : s.BranchZero A0) {r : ℕ} (hr : r < s.nv) :
    ∑ c ∈ range s.nv, (Q r c * w c + D r c * δv c + symUpper (addDiag s.nv A s.arm) r c * δa c)
      = ((rneaFext sε dε (perturb q dq) (perturb v δv) (perturb a δa) (fun i => (fext i).map inl)).tau r).snd := by
  obtain ⟨i, k, i1, hi, hk, rfl⟩ := h.cover hr
  rw [Sys.tau_var hal hc h hq hqε dε v δv a δa fext i1 hi hk,
    ← h.sum_seg (fun c => Q (s.iv i + k) c * w c + D (s.iv i + k) c * δv c
      + symUpper (addDiag s.nv A s.arm) (s.iv i + k) c * δa c)]
  have e : s.arm (s.iv i + k) * δa (s.iv i + k)
      = ∑ j ∈ Ico 1 s.n, ∑ l ∈ range (s.jnv j),
        (if s.iv i + k = s.iv j + l then s.arm (s.iv i + k) else 0) * δa (s.iv j + l) := by
    rw [h.sum_seg (fun c => (if s.iv i + k = c then s.arm (s.iv i + k) else 0) * δa c), sum_eq_single (s.iv i + k)]
    · rw [if_pos rfl]
    · intro c _ hne; rw [if_neg (Ne.symm hne), zero_mul]
    · intro hn; exact absurd (mem_range.2 hr) hn
  rw [e, ← sum_add_distrib]
  apply sum_congr rfl
  intro j hj
  obtain ⟨j1, hj⟩ := mem_Ico.1 hj
  rw [← sum_add_distrib]
  apply sum_congr rfl
  intro l hl
  have hl := mem_range.1 hl
  have hcv : s.iv j + l < s.nv := by have := h.le_nv j1 hj; omega
  rw [hQ.all h.par zQ (fun i j a b k l => Sys.eQ_off _ _ _ _ a b k l) i1 hi hk j1 hj hl,
    hD.all h.par zD (fun i j a b k l => Sys.eD_off _ _ a b k l) i1 hi hk j1 hj hl, hA.sym h hq zA hr hcv,
    Sys.massForm_eA h hq i1 hi hk j1 hj hl]
  ring

/-! ## `computeRNEADerivatives` -/

/-- `computeRNEADerivatives` returns the derivatives of the torque `rnea` returns. -/
theorem C53_rnea (h : s.Packed) (hcr : crbaCheck s.par s.n = true) (hm : s.MassesOk) (hal : s.Along sε q w dq)
    (hc : s.ConstS sε) (hq : s.At q) (hqε : sε.At (perturb q dq)) (d : Data K) (dε : Data K[ε]) (v δv a δa : ℕ → K)
    (o : RneaDer K) (zQ : s.BranchZero o.dq) (zD : s.BranchZero o.dv) (zA : s.BranchZero o.da) {r : ℕ} (hr : r < s.nv) :
    let D := (computeRNEADerivatives s d q v a o).2
    ∑ c ∈ range s.nv, (D.dq r c * w c + D.dv r c * δv c + symUpper D.da r c * δa c)
      = ((rnea sε dε (perturb q dq) (perturb v δv) (perturb a δa)).tau r).snd := by
  intro D
  have hcm := (crbaCheck_iff h.par).1 hcr
  obtain ⟨-, b2, b3, b4⟩ := rneaDerBwd_ok h hcm hm (rneaDerFwd_ok h hq v a
    (d := { d with oa_gf := upd d.oa_gf 0 (-s.grav) }) (upd_self d.oa_gf 0 _)) o
  rw [← rneaFext_zero (hal.wfε h) dε dε hqε _ _ (by rw [hal.nv]; exact hr)]
  refine (rneaDer_sum h hal hc hq hqε dε v δv a δa (fun _ => 0) b2 b3 b4 zQ zD zA hr).trans ?_
  congr 3

/-- With external forces, which do not move (they are given in the frames of the joints). `rnea_partial_da` lacks the
armature (`C53_armature_counterexample`); with it added to the diagonal the three matrices are the derivatives. -/
theorem C53_rnea_fext_partial (h : s.Packed) (hcr : crbaCheck s.par s.n = true) (hm : s.MassesOk) (hal : s.Along sε q w dq)
    (hc : s.ConstS sε) (hq : s.At q) (hqε : sε.At (perturb q dq)) (d : Data K) (dε : Data K[ε]) (v δv a δa : ℕ → K)
    (fext : ℕ → Force K) (o : RneaDer K) (zQ : s.BranchZero o.dq) (zD : s.BranchZero o.dv) (zA : s.BranchZero o.da)
    {r : ℕ} (hr : r < s.nv) :
    let D := (computeRNEADerivativesFext s d q v a fext o).2
    ∑ c ∈ range s.nv, (D.dq r c * w c + D.dv r c * δv c + symUpper (addDiag s.nv D.da s.arm) r c * δa c)
      = ((rneaFext sε dε (perturb q dq) (perturb v δv) (perturb a δa) (fun i => (fext i).map inl)).tau r).snd := by
  intro D
  have hcm := (crbaCheck_iff h.par).1 hcr
  obtain ⟨-, b2, b3, b4⟩ := rneaDerBwd_ok h hcm hm (rneaDerFwdFext_ok h hq v a fext
    (d := { d with oa_gf := upd d.oa_gf 0 (-s.grav) }) (upd_self d.oa_gf 0 _)) o
  exact rneaDer_sum h hal hc hq hqε dε v δv a δa fext b2 b3 b4 zQ zD zA hr

/-- The overloads that leave the derivatives in `data.dtau_dq`, `data.dtau_dv` and `data.M`, the second with external
forces. -/
theorem C53_rnea_in_data (h : s.Packed) (hcr : crbaCheck s.par s.n = true) (hm : s.MassesOk) (hal : s.Along sε q w dq)
    (hc : s.ConstS sε) (hq : s.At q) (hqε : sε.At (perturb q dq)) (d : Data K) (dε : Data K[ε]) (v δv a δa : ℕ → K)
    (fext : ℕ → Force K) (zQ : s.BranchZero d.dtau_dq) (zD : s.BranchZero d.dtau_dv) (zA : s.BranchZero d.M) {r : ℕ}
    (hr : r < s.nv) :
    (let e := computeRNEADerivativesIn s d q v a
     ∑ c ∈ range s.nv, (e.dtau_dq r c * w c + e.dtau_dv r c * δv c + symUpper e.M r c * δa c)
      = ((rnea sε dε (perturb q dq) (perturb v δv) (perturb a δa)).tau r).snd) ∧
    (let e := computeRNEADerivativesFextIn s d q v a fext
     ∑ c ∈ range s.nv, (e.dtau_dq r c * w c + e.dtau_dv r c * δv c + symUpper e.M r c * δa c)
      = ((rneaFext sε dε (perturb q dq) (perturb v δv) (perturb a δa) (fun i => (fext i).map inl)).tau r).snd) :=
  ⟨C53_rnea h hcr hm hal hc hq hqε d dε v δv a δa ⟨d.dtau_dq, d.dtau_dv, d.M⟩ zQ zD zA hr,
   C53_rnea_fext_partial h hcr hm hal hc hq hqε d dε v δv a δa fext ⟨d.dtau_dq, d.dtau_dv, d.M⟩ zQ zD zA hr⟩

/-- `rnea_partial_da` is the joint-space inertia matrix (whatever the joints), and `data.tau` the torque of `rnea`. -/
theorem C53_inertia_and_torque (h : s.Packed) (hcr : crbaCheck s.par s.n = true) (hm : s.MassesOk) (hq : s.At q)
    (d d' : Data K) (v a : ℕ → K) (o : RneaDer K) (zA : s.BranchZero o.da) (zA' : s.BranchZero d'.M) {r c : ℕ}
    (hr : r < s.nv) (hcv : c < s.nv) :
    symUpper (computeRNEADerivatives s d q v a o).2.da r c = symUpper (crbaWorld s d' q).M r c ∧
    (computeRNEADerivatives s d q v a o).1.tau r = (rnea s d' q v a).tau r := by
  have hcm := (crbaCheck_iff h.par).1 hcr
  obtain ⟨b1, -, -, b4⟩ := rneaDerBwd_ok h hcm hm (rneaDerFwd_ok h hq v a
    (d := { d with oa_gf := upd d.oa_gf 0 (-s.grav) }) (upd_self d.oa_gf 0 _)) o
  refine ⟨?_, ?_⟩
  · rw [(C13_entries h hcr hm d' hq zA' hr hcv).1]
    exact b4.sym h hq zA hr hcv
  · obtain ⟨i, k, i1, hi, hk, rfl⟩ := h.cover hr
    rw [← rneaFext_zero h.wf d' d' hq v a hr, rneaFext_entry h hq d' v a _ i1 hi hk, ← b1.tau i i1 i1 hi k hk]
    rfl

/-- the same with external forces -/
theorem C53_torque_fext (h : s.Packed) (hcr : crbaCheck s.par s.n = true) (hm : s.MassesOk) (hq : s.At q)
    (d d' : Data K) (v a : ℕ → K) (fext : ℕ → Force K) (o : RneaDer K) {r : ℕ} (hr : r < s.nv) :
    (computeRNEADerivativesFext s d q v a fext o).1.tau r = (rneaFext s d' q v a fext).tau r := by
  have hcm := (crbaCheck_iff h.par).1 hcr
  obtain ⟨b1, -, -, b4⟩ := rneaDerBwd_ok h hcm hm (rneaDerFwdFext_ok h hq v a fext
    (d := { d with oa_gf := upd d.oa_gf 0 (-s.grav) }) (upd_self d.oa_gf 0 _)) o
  obtain ⟨i, k, i1, hi, hk, rfl⟩ := h.cover hr
  rw [rneaFext_entry h hq d' v a _ i1 hi hk, ← b1.tau i i1 i1 hi k hk]
  rfl

/-- The zeros between different branches are kept, so that the same matrices can be used for the next call. -/
theorem C53_branch_zero (h : s.Packed) (hcr : crbaCheck s.par s.n = true) (hm : s.MassesOk) (hq : s.At q)
    (d : Data K) (v a : ℕ → K) (o : RneaDer K) (zQ : s.BranchZero o.dq) (zD : s.BranchZero o.dv)
    (zA : s.BranchZero o.da) :
    let D := (computeRNEADerivatives s d q v a o).2
    s.BranchZero D.dq ∧ s.BranchZero D.dv ∧ s.BranchZero D.da := by
  intro D
  have hcm := (crbaCheck_iff h.par).1 hcr
  obtain ⟨-, b2, b3, b4⟩ := rneaDerBwd_ok h hcm hm (rneaDerFwd_ok h hq v a
    (d := { d with oa_gf := upd d.oa_gf 0 (-s.grav) }) (upd_self d.oa_gf 0 _)) o
  refine ⟨?_, ?_, ?_⟩
  · intro i j i1 hi j1 hj n1 n2 k hk l hl
    exact (b2.other i i1 hi k hk j j1 hj n1 n2 l hl).trans (zQ i j i1 hi j1 hj n1 n2 k hk l hl)
  · intro i j i1 hi j1 hj n1 n2 k hk l hl
    exact (b3.other i i1 hi k hk j j1 hj n1 n2 l hl).trans (zD i j i1 hi j1 hj n1 n2 k hk l hl)
  · intro i j i1 hi j1 hj n1 n2 k hk l hl
    change addDiag _ _ _ _ _ = _
    unfold addDiag
    rw [if_neg]
    · exact (b4.other i i1 hi k hk j j1 hj n1 l hl).trans (zA i j i1 hi j1 hj n1 n2 k hk l hl)
    · rintro ⟨e, -⟩
      have := (h.inj i1 hi j1 hj hk hl e).1
      subst this
      exact n1 (anc_refl h.par hi)

/-! ## gravity and static torque -/

/-- `computeStaticTorqueDerivatives` returns the derivative of the torque `computeStaticTorque` returns, and leaves that
torque in `data.tau`. -/
theorem C53_static (h : s.Packed) (hf : s.Full) (hcr : crbaCheck s.par s.n = true) (hm : s.MassesOk)
    (hal : s.Along sε q w dq) (hc : s.ConstS sε) (hq : s.At q) (hqε : sε.At (perturb q dq)) (d d' : Data K)
    (dε : Data K[ε]) (fext : ℕ → Force K) (G : ℕ → ℕ → K) (zG : s.BranchZero G) {r : ℕ} (hr : r < s.nv) :
    let x := computeStaticTorqueDerivatives s d q fext G
    ∑ c ∈ range s.nv, x.2 r c * w c
      = ((computeStaticTorque sε dε (perturb q dq) (fun i => (fext i).map inl)).tau r).snd ∧
    x.1.tau r = (computeStaticTorque s d' q fext).tau r := by
  intro x
  have hcm := (crbaCheck_iff h.par).1 hcr
  obtain ⟨b1, b2⟩ := gravDerBwd_ok h hf hcm hm hq (hc.rest q) (gravDerFwdFext_ok h hq (hc.rest q) fext
    (d := { d with oa_gf := upd d.oa_gf 0 (-s.grav) }) (upd_self d.oa_gf 0 _)) _ G
  obtain ⟨i, k, i1, hi, hk, rfl⟩ := h.cover hr
  constructor
  · rw [static_rest (hal.wfε h) dε dε hqε (hc.restε hal _) _ (by rw [hal.nv]; exact hr), ← perturb_zero,
      Sys.tau_var hal hc h hq hqε dε _ _ _ _ fext i1 hi hk, ← h.sum_seg (fun c => x.2 (s.iv i + k) c * w c)]
    simp only [mul_zero, add_zero]
    apply sum_congr rfl
    intro j hj
    obtain ⟨j1, hj⟩ := mem_Ico.1 hj
    apply sum_congr rfl
    intro l hl
    congr 1
    exact b2.all h.par zG (fun i j a b k l => Sys.eQ_off _ _ _ _ a b k l) i1 hi hk j1 hj (mem_range.1 hl)
  · rw [static_rest h.wf d' d' hq (hc.rest q) fext hr, rneaFext_entry h hq d' _ _ _ i1 hi hk, mul_zero, add_zero]
    exact b1.tau i i1 i1 hi k hk

/-- `computeGeneralizedGravityDerivatives` returns the derivative of the torque `computeGeneralizedGravity` returns, and
leaves that torque in `data.g`. -/
theorem C53_gravity (h : s.Packed) (hf : s.Full) (hcr : crbaCheck s.par s.n = true) (hm : s.MassesOk)
    (hal : s.Along sε q w dq) (hc : s.ConstS sε) (hq : s.At q) (hqε : sε.At (perturb q dq)) (d d' : Data K)
    (dε : Data K[ε]) (G : ℕ → ℕ → K) (zG : s.BranchZero G) {r : ℕ} (hr : r < s.nv) :
    let x := computeGeneralizedGravityDerivatives s d q G
    ∑ c ∈ range s.nv, x.2 r c * w c = ((computeGeneralizedGravity sε dε (perturb q dq)).g r).snd ∧
    x.1.g r = (computeGeneralizedGravity s d' q).g r := by
  intro x
  have hcm := (crbaCheck_iff h.par).1 hcr
  obtain ⟨b1, b2⟩ := gravDerBwd_ok h hf hcm hm hq (hc.rest q) (gravDerFwd_ok h hq (hc.rest q)
    (d := { d with oa_gf := upd d.oa_gf 0 (-s.grav) }) (upd_self d.oa_gf 0 _)) _ G
  obtain ⟨i, k, i1, hi, hk, rfl⟩ := h.cover hr
  have hrε : s.iv i + k < sε.nv := by rw [hal.nv]; exact hr
  constructor
  · have ez : (fun _ : ℕ => (0 : Force K[ε])) = fun i => ((fun _ => (0 : Force K)) i).map inl := by
      funext i; simp [Force.map, V3.map]; rfl
    rw [(C15_gravity (hal.wfε h) dε dε dε hqε (hc.restε hal _) hrε).2, ← rneaFext_zero (hal.wfε h) dε dε hqε _ _ hrε,
      ← perturb_zero, ez, Sys.tau_var hal hc h hq hqε dε _ _ _ _ (fun _ => 0) i1 hi hk,
      ← h.sum_seg (fun c => x.2 (s.iv i + k) c * w c)]
    simp only [mul_zero, add_zero]
    apply sum_congr rfl
    intro j hj
    obtain ⟨j1, hj⟩ := mem_Ico.1 hj
    apply sum_congr rfl
    intro l hl
    congr 1
    exact b2.all h.par zG (fun i j a b k l => Sys.eQ_off _ _ _ _ a b k l) i1 hi hk j1 hj (mem_range.1 hl)
  · rw [(C15_gravity h.wf d' d' d' hq (hc.rest q) hr).2, ← rneaFext_zero h.wf d' d' hq _ _ hr,
      rneaFext_entry h hq d' _ _ _ i1 hi hk, mul_zero, add_zero]
    exact b1.tau i i1 i1 hi k hk

/-! ## what cannot be claimed -/

/-- matrices of zeros -/
def RneaDer.zero : RneaDer K := ⟨fun _ _ => 0, fun _ _ => 0, fun _ _ => 0⟩

set_option maxRecDepth 100000 in
/-- The overload with external forces leaves the armature out of `rnea_partial_da`: it is not the derivative of the torque
with respect to the acceleration, and not what the overload without external forces returns. The armature is added to
`data.M`, which was not asked for and is not reset. -/
theorem C53_armature_counterexample :
    let x := computeRNEADerivativesFext Ex.sysA Data.zero Ex.qA Ex.wA' Ex.vA (fun _ => 0) RneaDer.zero
    Ex.sysA.Packed ∧ Ex.sysA.Full ∧ crbaCheck Ex.sysA.par Ex.sysA.n = true ∧ Ex.sysA.MassesOk ∧ Ex.sysA.At Ex.qA ∧
    x.2.da 0 0 ≠ (computeRNEADerivatives Ex.sysA Data.zero Ex.qA Ex.wA' Ex.vA RneaDer.zero).2.da 0 0 ∧
    x.2.da 0 0 ≠ ((rneaFext Ex.sysAε Data.zero (perturb Ex.qA (fun _ => 0)) (perturb Ex.wA' (fun _ => 0))
      (perturb Ex.vA (Sys.unit 0)) (fun _ => 0)).tau 0).snd ∧
    x.1.M 0 0 = 1 / 10 ∧
    (computeRNEADerivativesFext Ex.sysA x.1 Ex.qA Ex.wA' Ex.vA (fun _ => 0) RneaDer.zero).1.M 0 0 = 2 / 10 := by
  refine ⟨Ex.sysA_packed, Ex.sysA_full, by decide, Ex.sysA_masses, Ex.sysA_at, ?_, ?_, ?_, ?_⟩
  all_goals decide +kernel

set_option maxRecDepth 100000 in
/-- Entries between different branches (here between joints 2 and 3), and the lower triangle of `rnea_partial_da`, are not
written: what the caller left in the matrices stays there. -/
theorem C53_stale_counterexample (x : ℚ) :
    let o : RneaDer ℚ := ⟨fun _ _ => x, fun _ _ => x, fun _ _ => x⟩
    let D := (computeRNEADerivatives Ex.sysA Data.zero Ex.qA Ex.wA' Ex.vA o).2
    D.dq 1 2 = x ∧ D.dv 1 2 = x ∧ D.da 1 2 = x ∧ D.da 1 0 = x ∧
      (computeGeneralizedGravityDerivatives Ex.sysA Data.zero Ex.qA (fun _ _ => x)).2 1 2 = x := ⟨rfl, rfl, rfl, rfl, rfl⟩

set_option maxRecDepth 100000 in
/-- With a `JointModelSphericalZYX`, whose motion subspace depends on the configuration, `computeRNEADerivatives` does not
return the derivative of the torque; the condition `Sys.ConstS` cannot be dropped. -/
theorem C53_constS_counterexample :
    let q : ℕ → ℚ := fun k => if k = 1 then 1 else 0
    let v : ℕ → ℚ := fun _ => 1
    let D := (computeRNEADerivatives Ex.sysZ Data.zero q v (fun _ => 0) RneaDer.zero).2
    Ex.sysZ.Packed ∧ Ex.sysZ.Full ∧ crbaCheck Ex.sysZ.par Ex.sysZ.n = true ∧ Ex.sysZ.At q ∧ Ex.sysZ.Along Ex.sysZε q v v ∧
    ∑ c ∈ range Ex.sysZ.nv, D.dq 0 c * v c
      ≠ ((rnea Ex.sysZε Data.zero (perturb q v) (perturb v (fun _ => 0)) (perturb (fun _ => 0) (fun _ => 0))).tau 0).snd := by
  intro q v D
  obtain ⟨a, b, c⟩ := Ex.sysZ_ok
  refine ⟨a, b, by decide, c q, Ex.sysZ_along q v, ?_⟩
  decide +kernel

/-! ## The hypotheses of the theorems above are met -/

theorem Ex.branchZero_zero : Ex.sysA.BranchZero (fun _ _ => (0 : ℚ)) := fun _ _ _ _ _ _ _ _ _ _ _ _ => rfl

/-- external forces of the examples -/
def Ex.fA : ℕ → Force ℚ := fun i => ⟨⟨i, 1, -2⟩, ⟨3, -(i : ℚ), 1⟩⟩

example := fun r => C53_rnea Ex.sysA_packed (by decide) Ex.sysA_masses Ex.sysA_along Ex.sysA_constS Ex.sysA_at
  Ex.sysAε_at Data.zero Data.zero Ex.wA' Ex.vA Ex.vA Ex.wA' RneaDer.zero Ex.branchZero_zero Ex.branchZero_zero
  Ex.branchZero_zero (r := r)
example := fun r => C53_rnea_fext_partial Ex.sysA_packed (by decide) Ex.sysA_masses Ex.sysA_along Ex.sysA_constS
  Ex.sysA_at Ex.sysAε_at Data.zero Data.zero Ex.wA' Ex.vA Ex.vA Ex.wA' Ex.fA RneaDer.zero Ex.branchZero_zero
  Ex.branchZero_zero Ex.branchZero_zero (r := r)
example := fun r => C53_rnea_in_data Ex.sysA_packed (by decide) Ex.sysA_masses Ex.sysA_along Ex.sysA_constS
  Ex.sysA_at Ex.sysAε_at Data.zero Data.zero Ex.wA' Ex.vA Ex.vA Ex.wA' Ex.fA Ex.branchZero_zero
  Ex.branchZero_zero Ex.branchZero_zero (r := r)
example := fun r c => C53_inertia_and_torque Ex.sysA_packed (by decide) Ex.sysA_masses Ex.sysA_at Data.zero Data.zero
  Ex.wA' Ex.vA RneaDer.zero Ex.branchZero_zero Ex.branchZero_zero (r := r) (c := c)
example := fun r => C53_torque_fext Ex.sysA_packed (by decide) Ex.sysA_masses Ex.sysA_at Data.zero Data.zero
  Ex.wA' Ex.vA Ex.fA RneaDer.zero (r := r)
example := C53_branch_zero Ex.sysA_packed (by decide) Ex.sysA_masses Ex.sysA_at Data.zero Ex.wA' Ex.vA RneaDer.zero
  Ex.branchZero_zero Ex.branchZero_zero Ex.branchZero_zero
example := fun r => C53_static Ex.sysA_packed Ex.sysA_full (by decide) Ex.sysA_masses Ex.sysA_along Ex.sysA_constS
  Ex.sysA_at Ex.sysAε_at Data.zero Data.zero Data.zero Ex.fA (fun _ _ => 0) Ex.branchZero_zero (r := r)
example := fun r => C53_gravity Ex.sysA_packed Ex.sysA_full (by decide) Ex.sysA_masses Ex.sysA_along Ex.sysA_constS
  Ex.sysA_at Ex.sysAε_at Data.zero Data.zero Data.zero (fun _ _ => 0) Ex.branchZero_zero (r := r)

set_option maxRecDepth 100000 in
/-- the derivatives are not zero there -/
example : (computeRNEADerivatives Ex.sysA Data.zero Ex.qA Ex.wA' Ex.vA RneaDer.zero).2.dq 0 5 ≠ 0 ∧
    (computeGeneralizedGravityDerivatives Ex.sysA Data.zero Ex.qA (fun _ _ => 0)).2 4 5 ≠ 0 := by decide +kernel

end Pin
