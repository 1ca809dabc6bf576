import Verif.Algo.ContactDynamicsLemmas
import Verif.Props.Minverse
import Mathlib.Analysis.Real.Sqrt

/-!
# C58 — dynamics and impacts under a constraint

`rt` is `sqrt`; it only has to be a square root of the pivots of the factorisation (`Real.sqrt` always is).
`s.Heavy q` makes the mass matrix invertible, `0 < μ ∨ (μ = 0 ∧ FullRank …)` the contact matrix. `d`, `c` are the
fields of `Data` before the call, with any content except `data.M` and `data.U` beside the tree (C21, C22).
-/

set_option linter.unusedSectionVars false

namespace Pin
open Finset
universe u

section
variable {K : Type u} [Field K] [LinearOrder K] [IsStrictOrderedRing K] [HasEps K] {s : Sys K} {rt : K → K}
  {q : ℕ → K} {nc : ℕ} {J : ℕ → ℕ → K} {μ : K}

/-- what `forwardDynamics` leaves, in terms of the inverse of the mass matrix -/
theorem fwd_coreM (h : s.Packed) (hf : s.Full) (hc : crbaCheck s.par s.n = true)
    (hH : s.Heavy q) {M : ℕ → ℕ → K} (he : ∀ r < s.nv, ∀ k < s.nv, symUpper M r k = massM s q r k)
    (hb : s.BranchZero M) (c : CData K) (hU : s.TreeTri c.chol.U) (nle tau gamma : ℕ → K)
    (hrt : SqrtOn rt s.nv (decompose s M c.chol).D)
    (hμ : 0 < μ ∨ (μ = 0 ∧ FullRank s.nv nc J)) {o : CData K} (ho : o = forwardDynamicsM rt s M nle c tau nc J gamma μ) :
      MInv s.nv (massM s q) (cholSolve s o.chol) ∧ IsContact s.nv nc (cholSolve s o.chol) J μ o.llt ∧ o.nc = nc ∧
      (∀ i < nc, dotN s.nv (J i) (cholSolve s o.chol (jt nc J o.lambda_c)) + μ * o.lambda_c i
        = -(dotN s.nv (J i) (cholSolve s o.chol fun r => tau r - nle r)) - gamma i) ∧
      ∀ r < s.nv, o.ddq r = cholSolve s o.chol (jt nc J o.lambda_c) r + cholSolve s o.chol (fun r => tau r - nle r) r := by
  obtain ⟨a1, a2⟩ := contact_mass h hf hc hH he hb hU hrt nc J μ
    { c with
      chol := decompose s M c.chol
      torque_residual := cholSolve s (decompose s M c.chol) (fun r => tau r - nle r) } rfl
  have hp := posDef_massM h hH
  subst ho
  exact ⟨a1, a2, rfl, fun i hi => a2.solve a1 hp hμ _ hi, fun r hr => rfl⟩

theorem allTerms_M (h : s.Packed) (hc : crbaCheck s.par s.n = true) (hm : s.MassesOk) (hq : s.At q)
    (d : Data K) (h0 : s.BranchZero d.M) (v : ℕ → K) :
    (∀ r < s.nv, ∀ k < s.nv, symUpper (computeAllTerms s d q v).M r k = massM s q r k) ∧
    s.BranchZero (computeAllTerms s d q v).M := by
  refine ⟨fun r hr k hk => C56_mass_entries h hc hm d hq v h0 hr hk, fun i j a b c' e f g k hk l hl => ?_⟩
  have hW : ∀ r < s.nv, ∀ k < s.nv, (computeAllTerms s d q v).M r k = (crbaWorld s d q).M r k := fun r hr k hk =>
    (C56_mass_matrix h hc hm d d hq v rfl hr hk).1
  rw [hW _ (by have := h.le_nv a b; omega) _ (by have := h.le_nv c' e; omega)]
  exact (C13_branch_zero h hc hm d hq h0).1 i j a b c' e f g k hk l hl

theorem fwd_core (h : s.Packed) (hf : s.Full) (hc : crbaCheck s.par s.n = true) (hm : s.MassesOk) (hq : s.At q)
    (hH : s.Heavy q) (d : Data K) (h0 : s.BranchZero d.M) (c : CData K) (hU : s.TreeTri c.chol.U) (v tau gamma : ℕ → K)
    (hrt : SqrtOn rt s.nv (forwardDynamics rt s d c q v tau nc J gamma μ).2.chol.D)
    (hμ : 0 < μ ∨ (μ = 0 ∧ FullRank s.nv nc J)) (d' : Data K) {o : CData K}
    (ho : o = (forwardDynamics rt s d c q v tau nc J gamma μ).2) :
      MInv s.nv (massM s q) (cholSolve s o.chol) ∧ IsContact s.nv nc (cholSolve s o.chol) J μ o.llt ∧ o.nc = nc ∧
      (∀ i < nc, dotN s.nv (J i) (cholSolve s o.chol (jt nc J o.lambda_c)) + μ * o.lambda_c i
        = -(dotN s.nv (J i) (cholSolve s o.chol fun r => tau r - (nonLinearEffects s d' q v).nle r)) - gamma i) ∧
      ∀ r < s.nv, o.ddq r = cholSolve s o.chol (jt nc J o.lambda_c) r +
        cholSolve s o.chol (fun r => tau r - (nonLinearEffects s d' q v).nle r) r := by
  obtain ⟨he, hb⟩ := allTerms_M h hc hm hq d h0 v
  obtain ⟨a1, a2, a3, a4, a5⟩ := fwd_coreM h hf hc hH he hb c hU (computeAllTerms s d q v).nle tau gamma hrt hμ ho
  have hn : ∀ r < s.nv, cholSolve s o.chol (fun r => tau r - (computeAllTerms s d q v).nle r) r
      = cholSolve s o.chol (fun r => tau r - (nonLinearEffects s d' q v).nle r) r := fun r hr => by
    refine a1.uniq _ _ (fun k hk => ?_) r hr
    rw [a1.sol _ k hk, C56_nle h hc hm d d' hq v hk]
  refine ⟨a1, a2, a3, fun i hi => ?_, fun r hr => ?_⟩
  · rw [a4 i hi]
    congr 2
    exact sum_congr rfl fun r hr => congrArg _ (hn r (mem_range.1 hr))
  · rw [a5 r hr, hn r hr]

/-- **Constrained forward dynamics.** The acceleration and the multipliers that `forwardDynamics` leaves satisfy the
equation of motion with the constraint forces, `rnea(q, v, ddq) = tau + Jᵀ λ`, and the constraint
`J ddq + γ + μ λ = 0`. -/
theorem C58_forward_dynamics (h : s.Packed) (hf : s.Full) (hc : crbaCheck s.par s.n = true) (hm : s.MassesOk)
    (hq : s.At q) (hH : s.Heavy q) (d d' : Data K) (h0 : s.BranchZero d.M) (c : CData K) (hU : s.TreeTri c.chol.U)
    (v tau gamma : ℕ → K) (hrt : SqrtOn rt s.nv (forwardDynamics rt s d c q v tau nc J gamma μ).2.chol.D)
    (hμ : 0 < μ ∨ (μ = 0 ∧ FullRank s.nv nc J)) :
    (∀ r < s.nv, (rnea s d' q v (forwardDynamics rt s d c q v tau nc J gamma μ).2.ddq).tau r
      = tau r + ∑ i ∈ range nc, J i r * (forwardDynamics rt s d c q v tau nc J gamma μ).2.lambda_c i) ∧
    ∀ i < nc, ∑ r ∈ range s.nv, J i r * (forwardDynamics rt s d c q v tau nc J gamma μ).2.ddq r + gamma i
      + μ * (forwardDynamics rt s d c q v tau nc J gamma μ).2.lambda_c i = 0 := by
  obtain ⟨a1, a2, -, a3, a4⟩ := fwd_core h hf hc hm hq hH d h0 c hU v tau gamma hrt hμ d' rfl
  revert a1 a2 a3 a4
  generalize (forwardDynamics rt s d c q v tau nc J gamma μ).2 = o
  intro a1 a2 a3 a4
  refine ⟨fun r hr => ?_, fun i hi => ?_⟩
  · have e := C12_affine h.wf d' d' hq v o.ddq (Sys.unit r)
    rw [Sys.dotv_unit hr, Sys.dotv_unit hr] at e
    rw [e, Sys.massForm_congr_right h.wf a4, Sys.massForm_add_right h.par, a1.form h.wf, a1.form h.wf,
      Sys.dotv_unit hr, Sys.dotv_unit hr]
    unfold jt
    ring
  · have e : ∑ r ∈ range s.nv, J i r * o.ddq r = dotN s.nv (J i) (cholSolve s o.chol (jt nc J o.lambda_c)) +
        dotN s.nv (J i) (cholSolve s o.chol fun r => tau r - (nonLinearEffects s d' q v).nle r) := by
      unfold dotN
      rw [← sum_add_distrib]
      exact sum_congr rfl fun r hr => by rw [a4 r (mem_range.1 hr), mul_add]
    rw [e]
    linear_combination a3 i hi

/-- There is no other acceleration satisfying both equations, for any multipliers -/
theorem C58_forward_dynamics_unique (h : s.Packed) (hf : s.Full) (hc : crbaCheck s.par s.n = true) (hm : s.MassesOk)
    (hq : s.At q) (hH : s.Heavy q) (d d' : Data K) (h0 : s.BranchZero d.M) (c : CData K) (hU : s.TreeTri c.chol.U)
    (v tau gamma : ℕ → K) (hrt : SqrtOn rt s.nv (forwardDynamics rt s d c q v tau nc J gamma μ).2.chol.D)
    (hμ : 0 < μ ∨ (μ = 0 ∧ FullRank s.nv nc J)) {a l : ℕ → K}
    (ha : ∀ r < s.nv, (rnea s d' q v a).tau r = tau r + ∑ i ∈ range nc, J i r * l i)
    (hl : ∀ i < nc, ∑ r ∈ range s.nv, J i r * a r + gamma i + μ * l i = 0) :
    (∀ r < s.nv, a r = (forwardDynamics rt s d c q v tau nc J gamma μ).2.ddq r) ∧
    ∀ i < nc, l i = (forwardDynamics rt s d c q v tau nc J gamma μ).2.lambda_c i := by
  obtain ⟨b1, b2⟩ := C58_forward_dynamics h hf hc hm hq hH d d' h0 c hU v tau gamma hrt hμ
  let o := (forwardDynamics rt s d c q v tau nc J gamma μ).2
  let y : ℕ → K := fun r => a r - o.ddq r
  let k : ℕ → K := fun i => l i - o.lambda_c i
  have hy : ∀ w, s.massForm q w y = s.dotv w (jt nc J k) := fun w => by
    have e1 := C12_affine h.wf d' d' hq v a w
    have e2 := C12_affine h.wf d' d' hq v o.ddq w
    have e3 : s.massForm q w a = s.massForm q w y + s.massForm q w o.ddq := by
      rw [← Sys.massForm_add_right h.par]
      congr 1
      funext r
      simp only [y]
      ring
    have e4 : s.dotv w (rnea s d' q v a).tau - s.dotv w (rnea s d' q v o.ddq).tau = s.dotv w (jt nc J k) := by
      rw [← Sys.dotv_sub]
      refine sum_congr rfl fun r hr => ?_
      dsimp only
      rw [ha r (mem_range.1 hr), b1 r (mem_range.1 hr)]
      unfold jt
      congr 1
      simp only [k, mul_sub, sum_sub_distrib]
      ring
    linear_combination e4 - e1 + e2 - e3
  have hj : ∀ i < nc, dotN s.nv (J i) y = -(μ * k i) := fun i hi => by
    have e : dotN s.nv (J i) y = ∑ r ∈ range s.nv, J i r * a r - ∑ r ∈ range s.nv, J i r * o.ddq r := by
      unfold dotN
      simp only [y, mul_sub, sum_sub_distrib]
    have h1 := hl i hi
    have h2 := b2 i hi
    rw [e]
    simp only [k]
    linear_combination h1 - h2
  have hquad : s.massForm q y y = -(μ * ∑ i ∈ range nc, k i * k i) := by
    rw [hy y]
    have : s.dotv y (jt nc J k) = dotN s.nv (jt nc J k) y := sum_congr rfl fun r _ => mul_comm _ _
    rw [this, dotN_jt, mul_sum, ← sum_neg_distrib]
    exact sum_congr rfl fun i hi => by rw [hj i (mem_range.1 hi)]; ring
  have hμ0 : 0 ≤ μ := hμ.elim le_of_lt fun h => h.1.ge
  have hy0 : ∀ r < s.nv, y r = 0 := by
    by_contra hcon
    push Not at hcon
    obtain ⟨r, hr, hn⟩ := hcon
    have := Sys.massForm_pos h hH.body hH.cols hH.arm y ⟨r, hr, hn⟩
    rw [hquad] at this
    have := mul_nonneg hμ0 (sum_nonneg fun i (_ : i ∈ range nc) => mul_self_nonneg (k i))
    linarith
  refine ⟨fun r hr => sub_eq_zero.1 (hy0 r hr), fun i hi => sub_eq_zero.1 ?_⟩
  show k i = 0
  rcases hμ with hμ | ⟨rfl, hJ⟩
  · have e : dotN s.nv (J i) y = 0 := sum_eq_zero fun r hr => by rw [hy0 r (mem_range.1 hr), mul_zero]
    have := hj i hi
    rw [e] at this
    rcases mul_eq_zero.1 (neg_eq_zero.1 this.symm) with h | h
    · exact absurd h hμ.ne'
    · exact h
  · refine hJ k (fun r hr => ?_) i hi
    have e := hy (Sys.unit r)
    rw [Sys.dotv_unit hr, Sys.massForm_congr_right h.wf hy0, Sys.massForm_zero_right h.par] at e
    exact e.symm

/-- **Gauss's principle.** Without damping, among the accelerations that satisfy the constraint, the one returned is
the closest to the free acceleration, in the metric of the mass matrix -/
theorem C58_gauss (h : s.Packed) (hf : s.Full) (hc : crbaCheck s.par s.n = true) (hm : s.MassesOk)
    (hq : s.At q) (hH : s.Heavy q) (d d' : Data K) (h0 : s.BranchZero d.M) (c : CData K) (hU : s.TreeTri c.chol.U)
    (v tau gamma : ℕ → K) (hrt : SqrtOn rt s.nv (forwardDynamics rt s d c q v tau nc J gamma 0).2.chol.D)
    (hJ : FullRank s.nv nc J) {free a : ℕ → K} (hfree : ∀ r < s.nv, (rnea s d' q v free).tau r = tau r)
    (ha : ∀ i < nc, ∑ r ∈ range s.nv, J i r * a r + gamma i = 0) :
    s.massForm q (fun r => (forwardDynamics rt s d c q v tau nc J gamma 0).2.ddq r - free r)
        (fun r => (forwardDynamics rt s d c q v tau nc J gamma 0).2.ddq r - free r)
      ≤ s.massForm q (fun r => a r - free r) (fun r => a r - free r) := by
  obtain ⟨b1, b2⟩ := C58_forward_dynamics h hf hc hm hq hH d d' h0 c hU v tau gamma hrt (Or.inr ⟨rfl, hJ⟩)
  let o := (forwardDynamics rt s d c q v tau nc J gamma 0).2
  let x : ℕ → K := fun r => o.ddq r - free r
  let y : ℕ → K := fun r => a r - o.ddq r
  have hx : s.massForm q y x = 0 := by
    have e1 := C12_affine h.wf d' d' hq v free y
    have e2 := C12_affine h.wf d' d' hq v o.ddq y
    have e3 : s.massForm q y o.ddq = s.massForm q y x + s.massForm q y free := by
      rw [← Sys.massForm_add_right h.par]
      congr 1
      funext r
      simp only [x]
      ring
    have e4 : s.dotv y (rnea s d' q v o.ddq).tau - s.dotv y (rnea s d' q v free).tau
        = dotN s.nv (jt nc J o.lambda_c) y := by
      rw [← Sys.dotv_sub]
      refine sum_congr rfl fun r hr => ?_
      dsimp only
      rw [hfree r (mem_range.1 hr), b1 r (mem_range.1 hr)]
      unfold jt
      ring
    have e5 : dotN s.nv (jt nc J o.lambda_c) y = 0 := by
      rw [dotN_jt]
      refine sum_eq_zero fun i hi => ?_
      rw [mem_range] at hi
      have h1 := ha i hi
      have h2 := b2 i hi
      have : dotN s.nv (J i) y = ∑ r ∈ range s.nv, J i r * a r - ∑ r ∈ range s.nv, J i r * o.ddq r := by
        unfold dotN
        simp only [y, mul_sub, sum_sub_distrib]
      rw [this]
      linear_combination o.lambda_c i * (h1 - h2)
    linear_combination e4 + e5 - e2 + e1 - e3
  have hs : (fun r => a r - free r) = fun r => x r + y r := by
    funext r; simp only [x, y]; ring
  have hnn : 0 ≤ s.massForm q y y := by
    by_cases hz : ∃ r, r < s.nv ∧ y r ≠ 0
    · exact (Sys.massForm_pos h hH.body hH.cols hH.arm y hz).le
    · push Not at hz
      rw [Sys.massForm_congr_right h.wf hz, Sys.massForm_zero_right h.par]
  rw [hs, Sys.massForm_add_right h.par, Sys.massForm_symm q (fun r => x r + y r) x, Sys.massForm_add_right h.par,
    Sys.massForm_symm q (fun r => x r + y r) y, Sys.massForm_add_right h.par, hx, Sys.massForm_symm q x y, hx]
  show s.massForm q x x ≤ _
  linarith

/-- what `impulseDynamics` leaves -/
theorem imp_core (h : s.Packed) (hf : s.Full) (hc : crbaCheck s.par s.n = true)
    (hH : s.Heavy q) {M : ℕ → ℕ → K} (he : ∀ r < s.nv, ∀ k < s.nv, symUpper M r k = massM s q r k)
    (hb : s.BranchZero M) (c : CData K) (hU : s.TreeTri c.chol.U) (v : ℕ → K) (e : K)
    (hrt : SqrtOn rt s.nv (decompose s M c.chol).D)
    (hμ : 0 < μ ∨ (μ = 0 ∧ FullRank s.nv nc J)) {o : CData K} (ho : o = impulseDynamicsM rt s M c v nc J e μ) :
      MInv s.nv (massM s q) (cholSolve s o.chol) ∧
      (∀ i < nc, dotN s.nv (J i) (cholSolve s o.chol (jt nc J o.impulse_c)) + μ * o.impulse_c i
        = (-e - 1) * dotN s.nv (J i) v) ∧
      ∀ r, o.dq_after r = cholSolve s o.chol (jt nc J o.impulse_c) r + v r := by
  obtain ⟨a1, a2⟩ := contact_mass h hf hc hH he hb hU hrt nc J μ { c with chol := decompose s M c.chol } rfl
  have hp := posDef_massM h hH
  subst ho
  exact ⟨a1, fun i hi => a2.solve a1 hp hμ _ hi, fun r => rfl⟩

/-- **Impulse dynamics.** The velocity after the impact is the one before plus the effect of the impulses,
`M (v⁺ - v) = Jᵀ Λ`, and the constrained velocity is reflected with the restitution coefficient,
`J v⁺ = -e J v - μ Λ`. -/
theorem C58_impulse (h : s.Packed) (hf : s.Full) (hc : crbaCheck s.par s.n = true) (hm : s.MassesOk)
    (hq : s.At q) (hH : s.Heavy q) (d : Data K) (h0 : s.BranchZero d.M) (c : CData K) (hU : s.TreeTri c.chol.U)
    (v : ℕ → K) (e : K) (hrt : SqrtOn rt s.nv (impulseDynamics rt s d c q v nc J e μ).2.chol.D)
    (hμ : 0 < μ ∨ (μ = 0 ∧ FullRank s.nv nc J)) :
    (∀ r < s.nv, s.massForm q (Sys.unit r) (fun k => (impulseDynamics rt s d c q v nc J e μ).2.dq_after k - v k)
      = ∑ i ∈ range nc, J i r * (impulseDynamics rt s d c q v nc J e μ).2.impulse_c i) ∧
    ∀ i < nc, ∑ r ∈ range s.nv, J i r * (impulseDynamics rt s d c q v nc J e μ).2.dq_after r
      = -e * ∑ r ∈ range s.nv, J i r * v r - μ * (impulseDynamics rt s d c q v nc J e μ).2.impulse_c i := by
  obtain ⟨a1, a3, a4⟩ := imp_core h hf hc hH
    (fun r hr k hk => (C13_entries h hc hm d hq h0 hr hk).1) (C13_branch_zero h hc hm d hq h0).1 c hU v e hrt hμ rfl
  change (∀ r < s.nv, s.massForm q (Sys.unit r)
      (fun k => (impulseDynamicsM rt s (crbaWorld s d q).M c v nc J e μ).dq_after k - v k)
      = ∑ i ∈ range nc, J i r * (impulseDynamicsM rt s (crbaWorld s d q).M c v nc J e μ).impulse_c i) ∧
    ∀ i < nc, ∑ r ∈ range s.nv, J i r * (impulseDynamicsM rt s (crbaWorld s d q).M c v nc J e μ).dq_after r
      = -e * ∑ r ∈ range s.nv, J i r * v r
        - μ * (impulseDynamicsM rt s (crbaWorld s d q).M c v nc J e μ).impulse_c i
  revert a1 a3 a4
  generalize (impulseDynamicsM rt s (crbaWorld s d q).M c v nc J e μ) = o
  intro a1 a3 a4
  refine ⟨fun r hr => ?_, fun i hi => ?_⟩
  · rw [Sys.massForm_congr_right h.wf (b := cholSolve s o.chol (jt nc J o.impulse_c))
      (fun k _ => by rw [a4]; ring), a1.form h.wf, Sys.dotv_unit hr]
    rfl
  · have e1 : ∑ r ∈ range s.nv, J i r * o.dq_after r
        = dotN s.nv (J i) (cholSolve s o.chol (jt nc J o.impulse_c)) + dotN s.nv (J i) v := by
      unfold dotN
      rw [← sum_add_distrib]
      exact sum_congr rfl fun r _ => by rw [a4, mul_add]
    have := a3 i hi
    rw [e1]
    show _ = -e * dotN s.nv (J i) v - _
    linear_combination this

/-- **An impact does not create energy**: with a restitution coefficient between 0 and 1 the kinetic energy after the
impact is at most that before, and it is the same when the coefficient is 1 and there is no damping. -/
theorem C58_impulse_energy (h : s.Packed) (hf : s.Full) (hc : crbaCheck s.par s.n = true) (hm : s.MassesOk)
    (hq : s.At q) (hH : s.Heavy q) (d d' d'' : Data K) (h0 : s.BranchZero d.M) (c : CData K) (hU : s.TreeTri c.chol.U)
    (v : ℕ → K) (e : K) (hrt : SqrtOn rt s.nv (impulseDynamics rt s d c q v nc J e μ).2.chol.D)
    (hμ : 0 < μ ∨ (μ = 0 ∧ FullRank s.nv nc J)) (hs : ∀ i, 1 ≤ i → i < s.n → (s.jt i).setsV = true) :
    (0 ≤ e → e ≤ 1 → (computeKineticEnergy s d' q (impulseDynamics rt s d c q v nc J e μ).2.dq_after).kinetic_energy
      ≤ (computeKineticEnergy s d'' q v).kinetic_energy) ∧
    (e = 1 → μ = 0 → (computeKineticEnergy s d' q (impulseDynamics rt s d c q v nc J e μ).2.dq_after).kinetic_energy
      = (computeKineticEnergy s d'' q v).kinetic_energy) := by
  obtain ⟨a1, a2⟩ := C58_impulse h hf hc hm hq hH d h0 c hU v e hrt hμ
  rw [kinetic_eq h d' hq _ hs, kinetic_eq h d'' hq _ hs]
  revert a1 a2
  generalize (impulseDynamics rt s d c q v nc J e μ).2 = o
  intro a1 a2
  let z : ℕ → K := fun k => o.dq_after k - v k
  let L := o.impulse_c
  have hz : ∀ w, s.massForm q w z = ∑ i ∈ range nc, L i * dotN s.nv (J i) w := fun w => by
    rw [Sys.massForm_symm, Sys.massForm_coord h.wf, ← dotN_jt]
    refine sum_congr rfl fun r hr => ?_
    rw [Sys.massForm_symm, a1 r (mem_range.1 hr)]
    first | rfl | exact mul_comm _ _
  have hJz : ∀ i < nc, dotN s.nv (J i) z = -(1 + e) * dotN s.nv (J i) v - μ * L i := fun i hi => by
    have e1 : dotN s.nv (J i) z = ∑ r ∈ range s.nv, J i r * o.dq_after r - dotN s.nv (J i) v := by
      unfold dotN
      simp only [z, mul_sub, sum_sub_distrib]
    have := a2 i hi
    rw [e1, this]
    unfold dotN
    ring
  set P := ∑ i ∈ range nc, L i * dotN s.nv (J i) v with hP
  set Q := ∑ i ∈ range nc, L i * L i with hQ
  have hzz : s.massForm q z z = -(1 + e) * P - μ * Q := by
    rw [hz, hP, hQ, mul_sum, mul_sum, ← sum_sub_distrib]
    exact sum_congr rfl fun i hi => by rw [hJz i (mem_range.1 hi)]; ring
  have hvz : s.massForm q v z = P := hz v
  have hs : o.dq_after = fun r => v r + z r := by funext r; simp only [z]; ring
  have hE : s.massForm q o.dq_after o.dq_after = s.massForm q v v + 2 * P + (-(1 + e) * P - μ * Q) := by
    rw [hs, Sys.massForm_add_right h.par, Sys.massForm_symm q (fun r => v r + z r) v, Sys.massForm_add_right h.par,
      Sys.massForm_symm q (fun r => v r + z r) z, Sys.massForm_add_right h.par, Sys.massForm_symm q z v, hvz, hzz]
    ring
  have hnn : 0 ≤ s.massForm q z z := by
    by_cases hz : ∃ r, r < s.nv ∧ z r ≠ 0
    · exact (Sys.massForm_pos h hH.body hH.cols hH.arm z hz).le
    · push Not at hz
      rw [Sys.massForm_congr_right h.wf hz, Sys.massForm_zero_right h.par]
  have hμ0 : 0 ≤ μ := hμ.elim le_of_lt fun h => h.1.ge
  have hQ0 : 0 ≤ μ * Q := mul_nonneg hμ0 (sum_nonneg fun i _ => mul_self_nonneg _)
  refine ⟨fun e0 e1 => ?_, fun e1 m0 => ?_⟩
  · rw [hzz] at hnn
    have hP0 : P ≤ 0 := by
      by_contra hcon
      push Not at hcon
      nlinarith [mul_nonneg e0 hcon.le]
    rw [hE]
    nlinarith [mul_nonneg (sub_nonneg.2 e1) (neg_nonneg.2 hP0)]
  · rw [hE, e1, m0]
    ring

/-- **The inverse of the KKT matrix.** `computeKKTContactDynamicMatrixInverse` returns the inverse of
`[[M, Jᵀ], [J, -μ]]`, where `M` is the mass matrix -/
theorem C58_kkt_inverse (h : s.Packed) (hf : s.Full) (hc : crbaCheck s.par s.n = true) (hm : s.MassesOk)
    (hq : s.At q) (hH : s.Heavy q) (d : Data K) (h0 : s.BranchZero d.M) (c : CData K) (hU : s.TreeTri c.chol.U)
    (hrt : SqrtOn rt s.nv (computeKKTInverse rt s d c q nc J μ).1.2.chol.D)
    (hμ : 0 < μ ∨ (μ = 0 ∧ FullRank s.nv nc J)) :
    InverseOf (s.nv + nc) (kktMatrix s.nv (fun r k => s.massForm q (Sys.unit r) (Sys.unit k)) J μ)
      (computeKKTInverse rt s d c q nc J μ).2 := by
  obtain ⟨a1, a2⟩ := contact_mass h hf hc hH (fun r hr k hk => (C13_entries h hc hm d hq h0 hr hk).1)
    (C13_branch_zero h hc hm d hq h0).1 hU hrt nc J μ { c with chol := decompose s (crbaWorld s d q).M c.chol } rfl
  exact kkt_inverse a1 (posDef_massM h hH) a2 hμ rfl rfl rfl rfl rfl

/-- `getKKTContactDynamicMatrixInverse` after `forwardDynamics` with the same `J` returns that inverse too -/
theorem C58_kkt_inverse_get (h : s.Packed) (hf : s.Full) (hc : crbaCheck s.par s.n = true) (hm : s.MassesOk)
    (hq : s.At q) (hH : s.Heavy q) (d : Data K) (h0 : s.BranchZero d.M) (c : CData K) (hU : s.TreeTri c.chol.U)
    (v tau gamma : ℕ → K) (hrt : SqrtOn rt s.nv (forwardDynamics rt s d c q v tau nc J gamma μ).2.chol.D)
    (hμ : 0 < μ ∨ (μ = 0 ∧ FullRank s.nv nc J)) :
    InverseOf (s.nv + nc) (kktMatrix s.nv (fun r k => s.massForm q (Sys.unit r) (Sys.unit k)) J μ)
      (getKKTInverse s (forwardDynamics rt s d c q v tau nc J gamma μ).2 J) := by
  obtain ⟨a1, a2, a3, -, -⟩ := fwd_core h hf hc hm hq hH d h0 c hU v tau gamma hrt hμ d rfl
  revert a1 a2 a3
  generalize (forwardDynamics rt s d c q v tau nc J gamma μ).2 = o
  intro a1 a2 a3
  subst a3
  exact kkt_inverse a1 (posDef_massM h hH) a2 hμ rfl rfl rfl rfl rfl

/-- The hypotheses on the content of `Data` hold again after the calls -/
theorem C58_again (h : s.Packed) (hf : s.Full) (hc : crbaCheck s.par s.n = true) (hm : s.MassesOk)
    (hq : s.At q) (d : Data K) (h0 : s.BranchZero d.M) (c : CData K) (hU : s.TreeTri c.chol.U)
    (v tau gamma : ℕ → K) (e : K) :
    (s.BranchZero (forwardDynamics rt s d c q v tau nc J gamma μ).1.M ∧
      s.TreeTri (forwardDynamics rt s d c q v tau nc J gamma μ).2.chol.U) ∧
    (s.BranchZero (impulseDynamics rt s d c q v nc J e μ).1.M ∧
      s.TreeTri (impulseDynamics rt s d c q v nc J e μ).2.chol.U) ∧
    (s.BranchZero (computeKKTInverse rt s d c q nc J μ).1.1.M ∧
      s.TreeTri (computeKKTInverse rt s d c q nc J μ).1.2.chol.U) := by
  have b1 := (allTerms_M h hc hm hq d h0 v).2
  have b2 := (C13_branch_zero h hc hm d hq h0).1
  exact ⟨⟨b1, (C22_decompose h hf hc _ b1 _ hU).1⟩, ⟨b2, (C22_decompose h hf hc _ b2 _ hU).1⟩,
    b2, (C22_decompose h hf hc _ b2 _ hU).1⟩

end

/-- `std::sqrt` on the reals is a square root of every pivot -/
theorem sqrtOn_real (n : ℕ) (D : ℕ → ℝ) : SqrtOn Real.sqrt n D := fun _ _ h => Real.mul_self_sqrt h.le

/-! ## the hypotheses are met -/
namespace Ex
/-- two sliders on top of each other, along `x`, of masses 1 and 4 -/
def sysQ : Sys ℚ := { sysP with Y := fun i => ⟨if i = 1 then 1 else 4, 0, ⟨1, 0, 1, 0, 0, 1⟩⟩ }
/-- `sqrt` on the pivots 1 and 4 -/
def rtQ (x : ℚ) : ℚ := if x = 4 then 2 else 1
/-- one constraint -/
def jQ (i r : ℕ) : ℚ := if i = 0 then (if r = 0 then 1 else 2) else 0
def cQ : CData ℚ := ⟨Chol.init, 0, fun _ => 0, fun _ => 0, fun _ => 0, fun _ _ => 0, fun _ _ => 0, fun _ _ => 0,
  fun _ => 0, fun _ => 0⟩

theorem sysQ_packed : sysQ.Packed := by
  refine ⟨⟨by decide, fun i h1 hi => ?_⟩, fun i h1 hi => ?_, rfl⟩ <;>
  · change i < 3 at hi
    interval_cases i <;> first | rfl | decide

theorem sysQ_heavy (q : ℕ → ℚ) : sysQ.Heavy q := by
  refine ⟨fun i _ _ => ⟨?_, fun w hw => ?_⟩, fun i _ _ x hx k hk => ?_, fun _ _ => le_refl _⟩
  · show (0 : ℚ) < if i = 1 then 1 else 4
    split <;> norm_num
  · have h := lt_of_le_of_ne (Inertia.sqNorm_nonneg w) fun e => hw (Inertia.eq_zero_of_sqNorm e.symm)
    simp only [sysQ, Sym3.vtiv, V3.sqNorm] at h ⊢
    nlinarith
  · change k < 1 at hk
    obtain rfl : k = 0 := by omega
    simpa [comb, sysQ, sysP, Sys.jnv, Sys.S, jPrismatic, Motion.ext_iff, V3.ext_iff, cols, V3.axis] using hx

end Ex

set_option maxRecDepth 100000 in
example : Ex.sysQ.Packed ∧ Ex.sysQ.Full ∧ crbaCheck Ex.sysQ.par Ex.sysQ.n = true ∧ Ex.sysQ.MassesOk ∧
    Ex.sysQ.At (fun _ => 1) ∧ Ex.sysQ.Heavy (fun _ => 1) ∧ Ex.sysQ.BranchZero (Data.zero (K := ℚ)).M ∧
    Ex.sysQ.TreeTri Ex.cQ.chol.U ∧
    SqrtOn Ex.rtQ Ex.sysQ.nv (forwardDynamics Ex.rtQ Ex.sysQ Data.zero Ex.cQ (fun _ => 1) (fun _ => 2) (fun _ => 3) 1
      Ex.jQ (fun _ => 5) 0).2.chol.D ∧
    SqrtOn Ex.rtQ Ex.sysQ.nv (impulseDynamics Ex.rtQ Ex.sysQ Data.zero Ex.cQ (fun _ => 1) (fun _ => 2) 1 Ex.jQ
      (1 / 2) 0).2.chol.D ∧
    SqrtOn Ex.rtQ Ex.sysQ.nv (computeKKTInverse Ex.rtQ Ex.sysQ Data.zero Ex.cQ (fun _ => 1) 1 Ex.jQ 0).1.2.chol.D ∧
    FullRank Ex.sysQ.nv 1 Ex.jQ ∧ ∀ i, 1 ≤ i → i < Ex.sysQ.n → (Ex.sysQ.jt i).setsV = true := by
  refine ⟨Ex.sysQ_packed, fun i _ _ => ?_, by decide, fun i _ _ => Or.inr ?_, ⟨fun _ _ _ => ?_, fun _ _ _ => jPrismatic_ok _ _⟩,
    Ex.sysQ_heavy _, fun _ _ _ _ _ _ _ _ _ _ _ _ => rfl, treeTri_init Ex.sysQ_packed, ?_, ?_, ?_, fun w hw i hi => ?_,
    fun _ _ _ => rfl⟩
  · exact le_refl _
  · show _ ≤ (if i = 1 then (1 : ℚ) else 4)
    split <;> norm_num [HasEps.eps]
  · exact SE3.valid_one
  · have : ∀ k < 2, Ex.rtQ ((decompose Ex.sysQ (computeAllTerms Ex.sysQ Data.zero (fun _ => 1) (fun _ => 2)).M Chol.init).D k) *
      Ex.rtQ ((decompose Ex.sysQ (computeAllTerms Ex.sysQ Data.zero (fun _ => 1) (fun _ => 2)).M Chol.init).D k)
        = (decompose Ex.sysQ (computeAllTerms Ex.sysQ Data.zero (fun _ => 1) (fun _ => 2)).M Chol.init).D k := by
      decide +kernel
    exact fun k hk _ => this k hk
  · have : ∀ k < 2, Ex.rtQ ((decompose Ex.sysQ (crbaWorld Ex.sysQ Data.zero (fun _ => 1)).M Chol.init).D k) *
      Ex.rtQ ((decompose Ex.sysQ (crbaWorld Ex.sysQ Data.zero (fun _ => 1)).M Chol.init).D k)
        = (decompose Ex.sysQ (crbaWorld Ex.sysQ Data.zero (fun _ => 1)).M Chol.init).D k := by
      decide +kernel
    exact fun k hk _ => this k hk
  · have : ∀ k < 2, Ex.rtQ ((decompose Ex.sysQ (crbaWorld Ex.sysQ Data.zero (fun _ => 1)).M Chol.init).D k) *
      Ex.rtQ ((decompose Ex.sysQ (crbaWorld Ex.sysQ Data.zero (fun _ => 1)).M Chol.init).D k)
        = (decompose Ex.sysQ (crbaWorld Ex.sysQ Data.zero (fun _ => 1)).M Chol.init).D k := by
      decide +kernel
    exact fun k hk _ => this k hk
  · have := hw 0 (by decide)
    obtain rfl : i = 0 := by omega
    simpa [Ex.jQ] using this

end Pin
