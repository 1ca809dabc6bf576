import Verif.Contact.LoopLemmas
import Verif.Props.Quaternion

/-!
# C31, C32, C48, C49, C50: friction cones and contact solvers

Statements over any ordered field with a square root (the reals are one). The cones, their duals, "closest point" and Coulomb's law are
in `Contact/Spec`.
-/

namespace Pin
universe u
variable {K : Type u} [Field K] [LinearOrder K] [IsStrictOrderedRing K] [HasSqrt K]

/-! ## C31 -/

/-- **C31.** For every friction coefficient `mu ≥ 0` and every vector, `project` gives the closest point of the cone -/
theorem C31_closest {c : Cone K} (hmu : 0 ≤ c.mu) (x : V3 K) : IsClosest (Coulomb c.mu) x (c.project x) := by
  obtain ⟨h1, h2, h3⟩ := project_var hmu x
  exact closest_of_var h1 h2 h3

/-- **C31.** The vectors that `project` leaves alone are those of the cone -/
theorem C31_fixed {c : Cone K} (hmu : 0 ≤ c.mu) (x : V3 K) : c.project x = x ↔ x ∈ Coulomb c.mu := by
  constructor
  · intro h; rw [← h]; exact (C31_closest hmu x).1
  · intro h
    by_contra hne
    have := (C31_closest hmu x).2 x h (Ne.symm hne)
    have h2 : (x - x).sqNorm = 0 := by simp [V3.sqNorm]
    rw [h2] at this
    exact absurd this (not_lt.2 (by
      simp only [V3.sqNorm]
      nlinarith [mul_self_nonneg (x - c.project x).x, mul_self_nonneg (x - c.project x).y, mul_self_nonneg (x - c.project x).z]))

/-- **C31.** `project` is idempotent -/
theorem C31_idempotent {c : Cone K} (hmu : 0 ≤ c.mu) (x : V3 K) : c.project (c.project x) = c.project x :=
  (C31_fixed hmu _).2 (C31_closest hmu x).1

/-- **C31.** With a positive coefficient, `isInside(f, 0)` answers whether `f` is in the cone; with a tolerance, whether the
tangential force exceeds the limit by more than the tolerance -/
theorem C31_isInside {c : Cone K} (hmu : 0 < c.mu) (f : V3 K) :
    (c.isInside f 0 = true ↔ f ∈ Coulomb c.mu) ∧ (∀ prec, 0 ≤ prec → f ∈ Coulomb c.mu → c.isInside f prec = true) := by
  unfold Cone.isInside
  constructor
  · rw [decide_eq_true_iff, mem_coulomb hmu.le, add_zero]
    refine ⟨fun h => ⟨?_, h⟩, fun h => h.2⟩
    have := tnorm_nn f
    by_contra hc
    push Not at hc
    have := mul_neg_of_pos_of_neg hmu hc
    linarith
  · intro prec hp hf
    rw [decide_eq_true_iff]
    have := ((mem_coulomb hmu.le).1 hf).2
    linarith

/-- **Finding (C31).** Without friction (`mu = 0`, which the constructor accepts) `isInside` accepts tensile forces, which
`project` moves -/
theorem C31_isInside_counterexample :
    (⟨0⟩ : Cone K).isInside ⟨0, 0, -1⟩ 0 = true ∧ (⟨0, 0, -1⟩ : V3 K) ∉ Coulomb 0 ∧
    (⟨0⟩ : Cone K).project ⟨0, 0, -1⟩ ≠ ⟨0, 0, -1⟩ := by
  have h : (⟨0, 0, -1⟩ : V3 K) ∉ Coulomb 0 := by
    rintro ⟨h, -⟩
    simp only at h
    linarith [zero_lt_one (α := K)]
  refine ⟨?_, h, fun e => h ((C31_fixed (le_refl (0 : K)) _).1 e)⟩
  simp [Cone.isInside, tnorm, sqrt_zero]

/-- **C31.** `DualCoulombFrictionCone::isInside(v, 0)` answers whether `v` makes an acute angle with every force of the
cone, for every `mu ≥ 0` -/
theorem C31_dual_isInside {c : Cone K} (hmu : 0 ≤ c.mu) (v : V3 K) :
    c.dualIsInside v 0 = true ↔ v ∈ DualOf (Coulomb c.mu) := by
  unfold Cone.dualIsInside
  rw [decide_eq_true_iff, mem_dual hmu, add_zero]

/-- **C31.** The cone is the dual of its dual -/
theorem C31_bidual {mu : K} (hmu : 0 ≤ mu) : DualOf (DualOf (Coulomb mu)) = Coulomb mu := by
  ext f
  constructor
  · intro h
    have h1 := h ⟨0, 0, 1⟩ ((mem_dual hmu).2 (by simp [tnorm, sqrt_zero]))
    have hs := tnorm_sq f
    have e : tnorm (⟨-f.x, -f.y, mu * tnorm f⟩ : V3 K) = tnorm f := by unfold tnorm; congr 1; ring
    have h2 := h ⟨-f.x, -f.y, mu * tnorm f⟩ ((mem_dual hmu).2 (by rw [e]))
    simp only [V3.dot, zero_mul, zero_add, one_mul] at h1 h2
    refine (mem_coulomb hmu).2 ⟨h1, ?_⟩
    rcases (tnorm_nn f).lt_or_eq with hp | h0
    · have : 0 ≤ tnorm f * (mu * f.z - tnorm f) := by nlinarith
      have := nonneg_of_mul_nonneg_right this hp
      linarith
    · rw [← h0]; exact mul_nonneg hmu h1
  · intro hf v hv
    have := hv f hf
    simp only [V3.dot] at *; linarith

/-- **C31.** The projection on the dual cone gives its closest point (`mu > 0`) -/
theorem C31_dual_closest {c : Cone K} (hmu : 0 < c.mu) (x : V3 K) :
    IsClosest (DualOf (Coulomb c.mu)) x (c.dualProject x) := by
  obtain ⟨h1, h2, h3⟩ := dualProject_var hmu.le x (Or.inl hmu)
  exact closest_of_var h1 h2 h3

/-- **Finding (C31).** Without friction, the projection on the dual cone sends separating velocities, which are inside, to zero -/
theorem C31_dual_counterexample :
    (⟨0, 0, 5⟩ : V3 K) ∈ DualOf (Coulomb 0) ∧ (⟨0⟩ : Cone K).dualIsInside ⟨0, 0, 5⟩ 0 = true ∧
    (⟨0⟩ : Cone K).dualProject ⟨0, 0, 5⟩ = 0 := by
  have h : (⟨0, 0, 5⟩ : V3 K) ∈ DualOf (Coulomb 0) := (mem_dual le_rfl).2 (by simp)
  refine ⟨h, (C31_dual_isInside (c := ⟨0⟩) le_rfl _).2 h, ?_⟩
  simp [Cone.dualProject, tnorm, sqrt_zero]

/-- **C31, Moreau's decomposition.** Every vector is the difference of its projection on the cone and of the projection of its
opposite on the dual cone, and these are orthogonal (`mu > 0`) -/
theorem C31_moreau {c : Cone K} (hmu : 0 < c.mu) (x : V3 K) :
    c.project x - c.dualProject (-x) = x ∧ (c.project x).dot (c.dualProject (-x)) = 0 := by
  obtain ⟨h1, h2, h3⟩ := project_var hmu.le x
  have e : c.project x - x = c.dualProject (-x) := by
    refine var_unique (C31_dual_closest hmu (-x)) (project_residual hmu.le x) ?_ (fun y hy => ?_)
    · simp only [V3.dot, V3.sub_x, V3.sub_y, V3.sub_z, V3.neg_x, V3.neg_y, V3.neg_z] at *
      linarith
    · have := hy _ h1
      simp only [V3.dot, V3.sub_x, V3.sub_y, V3.sub_z, V3.neg_x, V3.neg_y, V3.neg_z] at *
      linarith
  rw [← e]
  constructor
  · ext <;> simp
  · simp only [V3.dot, V3.sub_x, V3.sub_y, V3.sub_z] at *
    linarith

/-- **C31.** `weightedProject` gives the closest point of the cone for the weighted distance, if the two tangential weights are
equal (an assertion of the code) and the weights are positive -/
theorem C31_weighted {c : Cone K} (hmu : 0 ≤ c.mu) {R : V3 K} (hxy : R.x = R.y) (hx : 0 < R.x) (hz : 0 < R.z) (x : V3 K) :
    IsClosestW R (Coulomb c.mu) x (c.weightedProject x R) := by
  obtain ⟨h1, h2, h3⟩ := weighted_var hmu hxy hx hz x
  exact wclosest_of_var hx (hxy ▸ hx) hz h1 h2 h3

/-- **C31.** `computeRadialProjection` lands in the cone, keeps a compressive normal force, shrinks the tangential force along
itself, and leaves alone the forces of the cone -/
theorem C31_radial {c : Cone K} (hmu : 0 ≤ c.mu) (f : V3 K) :
    c.radialProjection f ∈ Coulomb c.mu ∧ (c.radialProjection f).z = max 0 f.z ∧
    (∃ k, 0 ≤ k ∧ k ≤ 1 ∧ (c.radialProjection f).x = k * f.x ∧ (c.radialProjection f).y = k * f.y) ∧
    (c.radialProjection f = f ↔ f ∈ Coulomb c.mu) := by
  have hs := tnorm_sq f
  have hfz : 0 ≤ max 0 f.z := le_max_left _ _
  have hm : 0 ≤ c.mu * max 0 f.z := mul_nonneg hmu hfz
  have key : c.radialProjection f ∈ Coulomb c.mu ∧ (c.radialProjection f).z = max 0 f.z ∧
      ∃ k, 0 ≤ k ∧ k ≤ 1 ∧ (c.radialProjection f).x = k * f.x ∧ (c.radialProjection f).y = k * f.y := by
    unfold Cone.radialProjection
    simp only
    split
    · rename_i h
      have hp : 0 < tnorm f := lt_of_le_of_lt hm h
      refine ⟨⟨hfz, le_of_eq ?_⟩, rfl, c.mu * max 0 f.z / tnorm f, div_nonneg hm hp.le, (div_le_one hp).2 h.le, rfl, rfl⟩
      have := hp.ne'
      simp only
      field_simp
      linear_combination (-c.mu ^ 2 * (max 0 f.z) ^ 2) * hs
    · rename_i h
      push Not at h
      refine ⟨⟨hfz, ?_⟩, rfl, 1, zero_le_one, le_refl _, (one_mul _).symm, (one_mul _).symm⟩
      simp only
      rw [← hs]; exact sq_le (tnorm_nn f) h
  refine ⟨key.1, key.2.1, key.2.2, fun h => h ▸ key.1, fun h => ?_⟩
  have h' := (mem_coulomb hmu).1 h
  unfold Cone.radialProjection
  simp only
  rw [max_eq_right h'.1, if_neg (not_lt.2 h'.2)]

/-- the hypotheses are met: a sliding force over the reals is projected on the border of the cone, exactly as computed by hand -/
example : (⟨1⟩ : Cone ℝ).project ⟨3, 4, 1⟩ = ⟨9 / 5, 12 / 5, 3⟩ := by
  have ht : tnorm (⟨3, 4, 1⟩ : V3 ℝ) = 5 := (tnorm_unique (by norm_num) (by norm_num)).symm
  rcases project_cases (c := (⟨1⟩ : Cone ℝ)) (by norm_num) ⟨3, 4, 1⟩ with ⟨h, _⟩ | ⟨h, _⟩ | ⟨_, _, _, e⟩
  · rw [ht] at h; norm_num at h
  · rw [ht] at h; norm_num at h
  · rw [e, ht]; ext <;> norm_num

/-! ## C50 -/

/-- **C50.** Coulomb's law with Signorini's condition is what the quantities of the cone measure: it holds exactly when
`isInside` accepts the force, the dual cone accepts the velocity corrected by `computeNormalCorrection`, and
`computeContactComplementarity` is zero (`mu > 0`) -/
theorem C50_coulomb {c : Cone K} (hmu : 0 < c.mu) (f v : V3 K) :
    CoulombLaw c.mu f v ↔ c.isInside f 0 = true ∧ c.dualIsInside (v + c.normalCorrection v) 0 = true ∧
      c.contactComplementarity v f = 0 := by
  rw [coulombLaw_iff hmu.le, (C31_isInside hmu f).1, C31_dual_isInside hmu.le]
  unfold Cone.contactComplementarity
  rw [abs_eq_zero]

/-- the correction accepts exactly the velocities that do not penetrate -/
theorem C50_correction {c : Cone K} (hmu : 0 ≤ c.mu) (v : V3 K) :
    c.dualIsInside (v + c.normalCorrection v) 0 = true ↔ 0 ≤ v.z := by
  have ht : tnorm (v + c.normalCorrection v) = tnorm v := by
    unfold tnorm; congr 1; simp [Cone.normalCorrection]
  unfold Cone.dualIsInside
  rw [decide_eq_true_iff, ht]
  have : (v + c.normalCorrection v).z = v.z + c.mu * tnorm v := rfl
  rw [this, add_zero]
  constructor <;> intro h <;> linarith

/-- a sliding contact that meets the law -/
example : CoulombLaw (1 / 2 : ℝ) ⟨-3, -4, 10⟩ ⟨3, 4, 0⟩ := by
  have ht : tnorm (⟨3, 4, 0⟩ : V3 ℝ) = 5 := (tnorm_unique (by norm_num) (by norm_num)).symm
  refine (coulombLaw_iff (by norm_num) _ _).2 ⟨⟨by norm_num, by norm_num⟩, (mem_dual (by norm_num)).2 ?_, ?_⟩
  · have : tnorm (⟨3, 4, 0⟩ + (⟨1 / 2⟩ : Cone ℝ).normalCorrection ⟨3, 4, 0⟩ : V3 ℝ) = 5 := by
      rw [← ht]; unfold tnorm; congr 1; simp [Cone.normalCorrection]
    rw [this]
    simp only [Cone.normalCorrection, ht, V3.add_z]; norm_num
  · simp only [Cone.normalCorrection, ht, V3.add_z, V3.add_x, V3.add_y, V3.dot]; norm_num

/-! ## C32 -/

/-- **C32, feasibility.** For every problem (matrix, free velocity, relaxation, precisions, guess), once an iteration has been
made the result is in the product of the cones, whether or not the solver reports success; entries that belong to no contact
are those of the guess -/
theorem C32_feasible (n : ℕ) (G : ℕ → ℕ → K) (g : ℕ → K) (w absPrec relPrec : K) {maxIt : ℕ} (hit : maxIt ≠ 0)
    {cones : List (Cone K)} (hmu : ∀ c ∈ cones, 0 ≤ c.mu) (x : ℕ → K) :
    ∀ c < cones.length, seg3 (pgsSolve n G g w absPrec relPrec maxIt cones x).x c ∈ Coulomb (cones.getD c ⟨0⟩).mu := by
  intro c hc
  unfold pgsSolve
  rcases pgsLoop_last n G g w absPrec relPrec cones maxIt ⟨x, false, false, none, none, 0⟩ with ⟨_, h⟩ | ⟨xp, h, -⟩
  · exact absurd h hit
  · obtain ⟨y, e⟩ := pgsSweep_seg n G g w cones xp hc
    rw [h, e]
    exact pgsForce_mem n G g w (cone_mu hmu hc) c y

/-- **C32.** With positive diagonal and relaxation, an iteration leaves its iterate alone exactly when every contact obeys
Coulomb's law with the velocities `G x + g` -/
theorem C32_fixed_points {n : ℕ} {G : ℕ → ℕ → K} {g : ℕ → K} {w : K} {cones : List (Cone K)} (hw : 0 < w)
    (hmu : ∀ c ∈ cones, 0 ≤ c.mu) (hG : ∀ i < 3 * cones.length, 0 < G i i) (x : ℕ → K) :
    (pgsSweep n G g w cones x).x = x ↔ ∀ c < cones.length,
      CoulombLaw (cones.getD c ⟨0⟩).mu (seg3 x c) (seg3 (fun i => (∑ j ∈ Finset.range n, G i j * x j) + g i) c) := by
  rw [pgsSweep_fixed x hw hmu hG]
  simp only [matVec_eq]

/-- **C32, relative test.** If the solver reports that the relative precision is reached, the last iteration moved no entry by
more than that precision times the largest entry -/
theorem C32_relative (n : ℕ) (G : ℕ → ℕ → K) (g : ℕ → K) (w absPrec relPrec : K) (maxIt : ℕ) (cones : List (Cone K))
    (x : ℕ → K) (h : (pgsSolve n G g w absPrec relPrec maxIt cones x).relReached = true) :
    ∃ xp, (pgsSolve n G g w absPrec relPrec maxIt cones x).x = (pgsSweep n G g w cones xp).x ∧
      ∀ i < n, |(pgsSolve n G g w absPrec relPrec maxIt cones x).x i - xp i| ≤
        relPrec * max (normInf n (pgsSolve n G g w absPrec relPrec maxIt cones x).x) (normInf n xp) := by
  unfold pgsSolve at *
  rcases pgsLoop_last n G g w absPrec relPrec cones maxIt ⟨x, false, false, none, none, 0⟩ with ⟨e, _⟩ | ⟨xp, h1, -, h3, -⟩
  · rw [e] at h; simp at h
  · refine ⟨xp, h1, ?_⟩
    rw [h3, decide_eq_true_iff] at h
    exact (normInf_le (le_trans (normInf_nn _ _) h)).1 h

/-- **C32, partial.** The solver is right when it reports that its last iteration moved nothing: then every contact obeys
Coulomb's law. Missing: success by *absolute* precision says nothing, see `C32_counterexample`; a bound on the distance to a
solution for a positive relative residual. -/
theorem C32_partial {n : ℕ} {G : ℕ → ℕ → K} {g : ℕ → K} {w absPrec relPrec : K} {maxIt : ℕ} {cones : List (Cone K)}
    (hn : n = 3 * cones.length) (hw : 0 < w) (hmu : ∀ c ∈ cones, 0 ≤ c.mu) (hG : ∀ i < n, 0 < G i i) (x : ℕ → K)
    (h : (pgsSolve n G g w absPrec relPrec maxIt cones x).relRes = some 0) :
    ∀ c < cones.length, CoulombLaw (cones.getD c ⟨0⟩).mu (seg3 (pgsSolve n G g w absPrec relPrec maxIt cones x).x c)
      (seg3 (fun i => (∑ j ∈ Finset.range n, G i j * (pgsSolve n G g w absPrec relPrec maxIt cones x).x j) + g i) c) := by
  unfold pgsSolve at *
  rcases pgsLoop_last n G g w absPrec relPrec cones maxIt ⟨x, false, false, none, none, 0⟩ with ⟨e, _⟩ | ⟨xp, h1, h2, -⟩
  · rw [e] at h; simp at h
  · rw [h2] at h
    have h0 := Option.some_injective _ h
    set r := (pgsLoop n G g w absPrec relPrec cones maxIt (normInf n x) ⟨x, false, false, none, none, 0⟩).x
    have hx : r = xp := by
      funext i
      by_cases hi : i < n
      · have := normInf_zero h0 hi
        linear_combination this
      · rw [h1]; exact pgsSweep_out n G g w cones xp (by omega)
    refine (C32_fixed_points hw hmu (fun i hi => hG i (by omega)) r).1 ?_
    rw [← hx] at h1
    exact h1.symm

/-- **Finding (C32).** One contact on a unit mass that falls at speed 1: with relaxation `1/2` the solver answers after one
iteration that it converged with absolute residual exactly `0`, on a force that leaves the contact penetrating at speed `1/2`.
The residuals are computed from `velocity.noalias() = G * df`, which forgets the velocity before the increment. -/
theorem C32_counterexample :
    let G : ℕ → ℕ → K := fun i j => if i = j then 1 else 0
    let g : ℕ → K := fun i => if i = 2 then -1 else 0
    let o := pgsSolve 3 G g (1 / 2) 0 0 1000 [⟨1⟩] (fun _ => 0)
    o.absReached = true ∧ o.absRes = some 0 ∧ (∑ j ∈ Finset.range 3, G 2 j * o.x j) + g 2 = -(1 / 2) ∧
    ¬ CoulombLaw 1 (seg3 o.x 0) (seg3 (fun i => (∑ j ∈ Finset.range 3, G i j * o.x j) + g i) 0) := by
  intro G g o
  have hh : (0 : K) < 1 / 2 := one_half_pos
  have hs : pgsSweep 3 G g (1 / 2) [(⟨1⟩ : Cone K)] (fun _ => 0) = ⟨setSeg3 (fun _ => 0) 0 ⟨0, 0, 1 / 2⟩, 0, 0⟩ := by
    have z : tnorm (0 : V3 K) = 0 := by simp [tnorm, sqrt_zero]
    simp [pgsSweep, pgsContact, matVec, List.range_succ, G, g, seg3, sqrt_zero, Cone.contactComplementarity,
      Cone.normalCorrection, V3.dot, Cone.dualProject, V3.norm, V3.sqNorm, tnorm]
  have ho : o.x = setSeg3 (fun _ => 0) 0 ⟨0, 0, 1 / 2⟩ ∧ o.absReached = true ∧ o.absRes = some 0 := by
    have e : o = pgsLoop 3 G g (1 / 2) 0 0 [(⟨1⟩ : Cone K)] (999 + 1) (normInf 3 (fun _ => 0)) ⟨fun _ => 0, false, false, none, none, 0⟩ := rfl
    rw [e]
    unfold pgsLoop
    simp only [hs]
    simp
  have hv : (∑ j ∈ Finset.range 3, G 2 j * o.x j) + g 2 = -(1 / 2) := by
    rw [ho.1]
    simp [Finset.sum_range_succ, G, g, setSeg3]
    ring
  refine ⟨ho.2.1, ho.2.2, hv, fun h => ?_⟩
  have := h.noPenetration
  have e : (seg3 (fun i => (∑ j ∈ Finset.range 3, G i j * o.x j) + g i) 0).z = -(1 / 2) := hv
  rw [e] at this
  linarith

/-- the hypotheses of `C32_partial` are met by the same mass with relaxation 1 and a second iteration -/
example : (pgsSolve 3 (fun i j => if i = j then (1 : ℝ) else 0) (fun i => if i = 2 then -1 else 0) 1 (-1) 0 1 [⟨1⟩]
    (setSeg3 (fun _ => 0) 0 ⟨0, 0, 1⟩)).relRes = some 0 := by
  have hs : (pgsSweep 3 (fun i j => if i = j then (1 : ℝ) else 0) (fun i => if i = 2 then -1 else 0) 1 [(⟨1⟩ : Cone ℝ)]
      (setSeg3 (fun _ => 0) 0 ⟨0, 0, 1⟩)).x = setSeg3 (fun _ => 0) 0 ⟨0, 0, 1⟩ := by
    rw [C32_fixed_points zero_lt_one (by simp) (by simp)]
    intro c hc
    have : c = 0 := by simpa using hc
    subst this
    refine ⟨⟨by simp [seg3, setSeg3], by simp [seg3, setSeg3]⟩, ?_, ?_, ?_⟩ <;>
      simp [seg3, setSeg3, Finset.sum_range_succ]
  show (pgsLoop 3 _ _ 1 (-1) 0 [(⟨1⟩ : Cone ℝ)] (0 + 1) _ _).relRes = _
  have z : normInf 3 (fun _ => (0 : ℝ)) = 0 := by simp [normInf, List.range_succ]
  unfold pgsLoop
  simp only [hs]
  split <;> simp [z, pgsLoop]

/-! ## C48: ADMM -/

/-- **C48.** Whatever the history of the solver (initial variables, updates of `rho`), when the ADMM solver reports success with
precision `ε`, there is an exact pair: forces `y` in the cones and `z` in the dual cones, orthogonal contact by contact; the
reported `x` is within `ε` of `y`; and `(G + R) x + g` plus De Saxcé's correction (that of a `z₀` within `tau·rho·ε` of `z`) is within `ε`
of `z`. Hypothesis: the linear solver inverts
`G + diag(d)` exactly for positive dampings `d`. -/
theorem C48_success {n : ℕ} {G : ℕ → ℕ → K} {solve : (ℕ → K) → (ℕ → K) → ℕ → K} {g R : ℕ → K} {cones : List (Cone K)}
    {muProx tau absPrec ratio incr : K} {maxIt : ℕ} {a a' : AdmmSt K}
    (hsolve : ∀ d : ℕ → K, (∀ i < n, 0 < d i) → ∀ b, ∀ i < n, (∑ j ∈ Finset.range n, G i j * solve d b j) + d i * solve d b i = b i)
    (hmu : ∀ c ∈ cones, 0 ≤ c.mu) (htau : 0 < tau) (hincr : 0 < incr) (hrho : 0 < a.rho)
    (hR : ∀ i < n, 0 ≤ R i) (hprox : 0 ≤ muProx)
    (h : admmLoop n solve g R cones muProx tau absPrec ratio incr maxIt a = (true, a')) :
    (∀ c < cones.length, seg3 a'.y c ∈ Coulomb (cones.getD c ⟨0⟩).mu ∧ seg3 a'.z c ∈ DualOf (Coulomb (cones.getD c ⟨0⟩).mu) ∧
      (seg3 a'.y c).dot (seg3 a'.z c) = 0) ∧
    (∀ i < n, |a'.x i - a'.y i| ≤ absPrec) ∧
    ∃ z₀ : ℕ → K, (∀ c < cones.length, seg3 a'.s c = (cones.getD c ⟨0⟩).normalCorrection (seg3 z₀ c)) ∧
      (∀ i < n, |a'.z i - z₀ i| ≤ tau * a'.rho * absPrec) ∧
      ∀ i < n, |(∑ j ∈ Finset.range n, G i j * a'.x j) + R i * a'.x i + g i + a'.s i - a'.z i| ≤ absPrec := by
  have hl : maxIt ≠ 0 := by
    rintro rfl
    simp [admmLoop] at h
  obtain ⟨p, hp, -, -, -, -, h5⟩ := admmLoop_last n solve g R cones (muProx := muProx) (tau := tau) (absPrec := absPrec)
    (ratio := ratio) hincr maxIt hrho hl
  rw [h] at h5
  obtain ⟨k1, k2, k3, k4⟩ := h5 rfl
  simp only at k4
  subst k4
  have hk : 0 < tau * p.rho := mul_pos htau hp
  have h0 : 0 ≤ absPrec := le_trans (normInf_nn _ _) k3
  have kp := (normInf_le h0).1 k3
  have kd := (normInf_le h0).1 k2
  refine ⟨fun c hc => ?_, kp, p.z, fun c hc => (admm_seg n solve g R cones muProx tau p hc).2.2, fun i hi => ?_, fun i hi => ?_⟩
  · obtain ⟨e1, e2, -⟩ := admm_seg n solve g R cones muProx tau p hc
    exact project_scaled (cone_mu hmu hc) hk _ _ e1 e2
  · have e : (admmIter n solve g R cones muProx tau p).z i - p.z i
        = -(tau * p.rho * ((admmIter n solve g R cones muProx tau p).x i - (admmIter n solve g R cones muProx tau p).y i)) := by
      simp only [admmIter]; ring
    rw [e, abs_neg, abs_mul, abs_of_pos hk]
    exact mul_le_mul_of_nonneg_left (kp i hi) hk.le
  · have e := hsolve (fun i => R i + (muProx + tau * p.rho)) (fun i hi => by have := hR i hi; linarith)
      (fun i => -(g i + complementarityShift cones p.z p.s i - (p.rho * tau) * p.y i - muProx * p.x i - p.z i)) i hi
    have := kd i hi
    rw [← abs_neg] at this
    refine le_of_eq_of_le ?_ this
    congr 1
    simp only [admmIter] at e ⊢
    linear_combination e

/-- **C48, exact case.** Success with precision `0` is a solution: every contact obeys Coulomb's law with the velocities
`(G + R) x + g` -/
theorem C48_exact {n : ℕ} {G : ℕ → ℕ → K} {solve : (ℕ → K) → (ℕ → K) → ℕ → K} {g R : ℕ → K} {cones : List (Cone K)}
    {muProx tau ratio incr : K} {maxIt : ℕ} {a a' : AdmmSt K}
    (hsolve : ∀ d : ℕ → K, (∀ i < n, 0 < d i) → ∀ b, ∀ i < n, (∑ j ∈ Finset.range n, G i j * solve d b j) + d i * solve d b i = b i)
    (hn : n = 3 * cones.length) (hmu : ∀ c ∈ cones, 0 ≤ c.mu) (htau : 0 < tau) (hincr : 0 < incr) (hrho : 0 < a.rho)
    (hR : ∀ i < n, 0 ≤ R i) (hprox : 0 ≤ muProx)
    (h : admmLoop n solve g R cones muProx tau 0 ratio incr maxIt a = (true, a')) :
    ∀ c < cones.length, CoulombLaw (cones.getD c ⟨0⟩).mu (seg3 a'.x c)
      (seg3 (fun i => (∑ j ∈ Finset.range n, G i j * a'.x j) + R i * a'.x i + g i) c) := by
  obtain ⟨h1, h2, z₀, h3, h4, h5⟩ := C48_success hsolve hmu htau hincr hrho hR hprox h
  intro c hc
  obtain ⟨g1, g2, g3⟩ := h1 c hc
  have z0 : ∀ {t : K}, |t| ≤ 0 → t = 0 := fun ht => abs_eq_zero.1 (le_antisymm ht (abs_nonneg _))
  have ex : seg3 a'.y c = seg3 a'.x c := by
    ext
    · have := z0 (h2 (3 * c) (by omega)); simp only [seg3]; linear_combination -this
    · have := z0 (h2 (3 * c + 1) (by omega)); simp only [seg3]; linear_combination -this
    · have := z0 (h2 (3 * c + 2) (by omega)); simp only [seg3]; linear_combination -this
  have ez : seg3 z₀ c = seg3 a'.z c := by
    simp only [mul_zero] at h4
    ext
    · have := z0 (h4 (3 * c) (by omega)); simp only [seg3]; linear_combination -this
    · have := z0 (h4 (3 * c + 1) (by omega)); simp only [seg3]; linear_combination -this
    · have := z0 (h4 (3 * c + 2) (by omega)); simp only [seg3]; linear_combination -this
  have es := h3 c hc
  rw [ez] at es
  set v := seg3 (fun i => (∑ j ∈ Finset.range n, G i j * a'.x j) + R i * a'.x i + g i) c with hv
  have ev : v + (cones.getD c ⟨0⟩).normalCorrection (seg3 a'.z c) = seg3 a'.z c := by
    rw [← es]
    ext
    · have := z0 (h5 (3 * c) (by omega)); simp only [hv, seg3, V3.add_x]; linear_combination this
    · have := z0 (h5 (3 * c + 1) (by omega)); simp only [hv, seg3, V3.add_y]; linear_combination this
    · have := z0 (h5 (3 * c + 2) (by omega)); simp only [hv, seg3, V3.add_z]; linear_combination this
  have et : tnorm (seg3 a'.z c) = tnorm v := by
    have kx : (seg3 a'.z c).x = v.x := by rw [← ev]; simp [Cone.normalCorrection]
    have ky : (seg3 a'.z c).y = v.y := by rw [← ev]; simp [Cone.normalCorrection]
    unfold tnorm; rw [kx, ky]
  have ev' : v + (⟨(cones.getD c ⟨0⟩).mu⟩ : Cone K).normalCorrection v = seg3 a'.z c := by
    rw [← ev]
    simp only [Cone.normalCorrection, et]
  refine (coulombLaw_iff (cone_mu hmu hc) _ _).2 ⟨ex ▸ g1, by rw [ev']; exact g2, by rw [ev', ← ex]; exact g3⟩

/-- **C48, feasibility.** Success or not, once an iteration has been made the forces `y` are in the cones, the velocities `z` in the dual
cones, and they are orthogonal -/
theorem C48_feasible (n : ℕ) (solve : (ℕ → K) → (ℕ → K) → ℕ → K) (g R : ℕ → K) {cones : List (Cone K)}
    {muProx tau absPrec ratio incr : K} {maxIt : ℕ} {a : AdmmSt K} (hit : maxIt ≠ 0) (hmu : ∀ c ∈ cones, 0 ≤ c.mu)
    (htau : 0 < tau) (hincr : 0 < incr) (hrho : 0 < a.rho) :
    let a' := (admmLoop n solve g R cones muProx tau absPrec ratio incr maxIt a).2
    ∀ c < cones.length, seg3 a'.y c ∈ Coulomb (cones.getD c ⟨0⟩).mu ∧ seg3 a'.z c ∈ DualOf (Coulomb (cones.getD c ⟨0⟩).mu) ∧
      (seg3 a'.y c).dot (seg3 a'.z c) = 0 := by
  intro a' c hc
  obtain ⟨p, hp, -, h2, h3, -⟩ := admmLoop_last n solve g R cones (muProx := muProx) (tau := tau) (absPrec := absPrec)
    (ratio := ratio) hincr maxIt hrho hit
  obtain ⟨e1, e2, -⟩ := admm_seg n solve g R cones muProx tau p hc
  show seg3 (admmLoop n solve g R cones muProx tau absPrec ratio incr maxIt a).2.y c ∈ _ ∧ _
  simp only [a']
  rw [h2, h3]
  exact project_scaled (cone_mu hmu hc) (mul_pos htau hp) _ _ e1 e2

/-- **C48, solutions are stationary.** If the contacts obey Coulomb's law with velocities `(G + R) f + g`, then started at
`x = y = f` and `z` the corrected velocities, the solver reports success at once, for any precision, and leaves the forces alone. The
linear solver has to be exact. -/
theorem C48_stationary {n : ℕ} {G : ℕ → ℕ → K} {solve : (ℕ → K) → (ℕ → K) → ℕ → K} {g R f : ℕ → K} {cones : List (Cone K)}
    {muProx tau absPrec ratio incr : K} {a : AdmmSt K} (hn : n = 3 * cones.length)
    (hsolve : ∀ (d b x : ℕ → K), (∀ i < n, 0 < d i) → (∀ i < n, (∑ j ∈ Finset.range n, G i j * x j) + d i * x i = b i) → ∀ i < n, solve d b i = x i)
    (hmu : ∀ c ∈ cones, 0 ≤ c.mu) (htau : 0 < tau) (hrho : 0 < a.rho) (hp : 0 ≤ absPrec)
    (hR : ∀ i < n, 0 ≤ R i) (hprox : 0 ≤ muProx)
    (hx : a.x = f) (hy : a.y = f)
    (hz : ∀ c < cones.length, seg3 a.z c = seg3 (fun i => (∑ j ∈ Finset.range n, G i j * f j) + R i * f i + g i) c +
      (cones.getD c ⟨0⟩).normalCorrection (seg3 (fun i => (∑ j ∈ Finset.range n, G i j * f j) + R i * f i + g i) c))
    (hf : ∀ c < cones.length, CoulombLaw (cones.getD c ⟨0⟩).mu (seg3 f c)
      (seg3 (fun i => (∑ j ∈ Finset.range n, G i j * f j) + R i * f i + g i) c)) (left : ℕ) :
    let r := admmLoop n solve g R cones muProx tau absPrec ratio incr (left + 1) a
    r.1 = true ∧ ∀ i < n, r.2.x i = f i ∧ r.2.y i = f i ∧ r.2.z i = a.z i := by
  set v : ℕ → K := fun i => (∑ j ∈ Finset.range n, G i j * f j) + R i * f i + g i with hv
  set a' := admmIter n solve g R cones muProx tau a with ha'
  have hk : 0 < tau * a.rho := mul_pos htau hrho
  have entry : ∀ {p q : ℕ → K}, (∀ c < cones.length, seg3 p c = seg3 q c) → ∀ i < n, p i = q i := by
    intro p q h i hi
    have hc : i / 3 < cones.length := by omega
    have := h (i / 3) hc
    have hx := congrArg V3.x this
    have hy := congrArg V3.y this
    have hz := congrArg V3.z this
    simp only [seg3] at hx hy hz
    rcases (by omega : i = 3 * (i / 3) ∨ i = 3 * (i / 3) + 1 ∨ i = 3 * (i / 3) + 2) with h | h | h <;> rw [h] <;> assumption
  -- the shift of `z` is the shift of `v`
  have hshift : ∀ c < cones.length, (cones.getD c ⟨0⟩).normalCorrection (seg3 a.z c) = (cones.getD c ⟨0⟩).normalCorrection (seg3 v c) := by
    intro c hc
    rw [hz c hc]
    unfold Cone.normalCorrection tnorm
    simp
  have hs : ∀ i < n, a'.s i + v i = a.z i := by
    apply entry (p := fun i => a'.s i + v i)
    intro c hc
    have e := (admm_seg n solve g R cones muProx tau a hc).2.2
    have e2 : seg3 (fun i => a'.s i + v i) c = seg3 a'.s c + seg3 v c := by ext <;> rfl
    rw [e2, ha', e, hshift c hc, hz c hc]
    exact add_comm _ _
  have hx' : ∀ i < n, a'.x i = f i := by
    intro i hi
    refine hsolve _ _ f (fun i hi => by have := hR i hi; linarith) (fun i hi => ?_) i hi
    have h1 := hs i hi
    have e : complementarityShift cones a.z a.s i = a'.s i := rfl
    rw [e, hx, hy]
    simp only [hv] at h1
    linear_combination h1
  have hseg : ∀ c < cones.length, seg3 a'.x c = seg3 f c := by
    intro c hc
    ext
    · exact hx' _ (by omega)
    · exact hx' _ (by omega)
    · exact hx' _ (by omega)
  have hyc : ∀ c < cones.length, seg3 a'.y c = seg3 f c := by
    intro c hc
    rw [(admm_seg n solve g R cones muProx tau a hc).1, hseg c hc]
    obtain ⟨g1, g2, g3⟩ := (coulombLaw_iff (cone_mu hmu hc) _ _).1 (hf c hc)
    refine project_stationary (cone_mu hmu hc) hk g1 ?_ ?_
    · rw [hz c hc]; exact g2
    · rw [hz c hc]; exact g3
  have hzc : ∀ c < cones.length, seg3 a'.z c = seg3 a.z c := by
    intro c hc
    rw [(admm_seg n solve g R cones muProx tau a hc).2.1, hseg c hc, ← ha', hyc c hc]
    ext <;> simp
  have hyi := entry hyc
  have hzi := entry hzc
  have hc1 : a'.compl ≤ absPrec := by
    show conicComplementarity cones a'.z a'.y ≤ absPrec
    unfold conicComplementarity
    rw [foldl_max_le]
    refine ⟨hp, fun c hc => ?_⟩
    rw [hzc c hc, hyc c hc, hz c hc]
    obtain ⟨-, -, g3⟩ := (coulombLaw_iff (cone_mu hmu hc) _ _).1 (hf c hc)
    unfold Cone.conicComplementarity
    have : (cones.getD c ⟨0⟩) = (⟨(cones.getD c ⟨0⟩).mu⟩ : Cone K) := rfl
    rw [this, g3, abs_zero]
    exact hp
  have hc2 : a'.dual ≤ absPrec := by
    show normInf n _ ≤ absPrec
    refine (normInf_le hp).2 (fun i hi => ?_)
    have h1 := hyi i hi
    have h2 := hx' i hi
    have e : (tau * a.rho) * (a'.y i - a.y i) + muProx * (a'.x i - a.x i) = 0 := by rw [hx, hy, h1, h2]; ring
    exact le_of_eq_of_le (by rw [← abs_zero]; exact congrArg _ e) hp
  have hc3 : a'.primal ≤ absPrec := by
    show normInf n _ ≤ absPrec
    refine (normInf_le hp).2 (fun i hi => ?_)
    have e : a'.x i - a'.y i = 0 := by rw [hyi i hi, hx' i hi, sub_self]
    exact le_of_eq_of_le (by rw [← abs_zero]; exact congrArg _ e) hp
  have hr : admmLoop n solve g R cones muProx tau absPrec ratio incr (left + 1) a = (true, a') := by
    unfold admmLoop
    simp only
    rw [← ha', if_pos ⟨hc1, hc2, hc3⟩]
  simp only
  rw [hr]
  exact ⟨rfl, fun i hi => ⟨hx' i hi, hyi i hi, hzi i hi⟩⟩

/-- the hypotheses are met: the unit mass that falls at speed 1 with friction, stopped by a unit impulse, with the exact inverse of
`1 + diag(d)`; the solver then reports success even for precision `0` -/
example : let G : ℕ → ℕ → ℝ := fun i j => if i = j then 1 else 0
    let solve : (ℕ → ℝ) → (ℕ → ℝ) → ℕ → ℝ := fun d b i => b i / (1 + d i)
    let g : ℕ → ℝ := fun i => if i = 2 then -1 else 0
    let f : ℕ → ℝ := setSeg3 (fun _ => 0) 0 ⟨0, 0, 1⟩
    (∀ d : ℕ → ℝ, (∀ i < 3, 0 < d i) → ∀ b, ∀ i < 3, (∑ j ∈ Finset.range 3, G i j * solve d b j) + d i * solve d b i = b i) ∧
    (admmLoop 3 solve g (fun _ => 0) [⟨1⟩] 1 1 0 10 2 5 ⟨f, f, fun _ => 0, fun _ => 0, 1, 0, 0, 0⟩).1 = true := by
  intro G solve g f
  have hG : ∀ (x : ℕ → ℝ), ∀ i < 3, (∑ j ∈ Finset.range 3, G i j * x j) = x i := by
    intro x i hi
    rcases (by omega : i = 0 ∨ i = 1 ∨ i = 2) with h | h | h <;> subst h <;> simp [G]
  have hv : ∀ i < 3, (∑ j ∈ Finset.range 3, G i j * f j) + 0 * f i + g i = 0 := by
    intro i hi
    rw [hG f i hi]
    rcases (by omega : i = 0 ∨ i = 1 ∨ i = 2) with h | h | h <;> subst h <;> simp [f, g, setSeg3]
  have hvs : seg3 (fun i => (∑ j ∈ Finset.range 3, G i j * f j) + 0 * f i + g i) 0 = 0 := by
    ext <;> exact hv _ (by omega)
  refine ⟨fun d hd b i hi => ?_, ?_⟩
  · have := hd i hi
    rw [hG _ i hi]
    simp only [solve]
    field_simp
  · refine (C48_stationary (G := G) (f := f) (by rfl) ?_ (by simp) one_pos (by exact one_pos) le_rfl (by simp) zero_le_one rfl rfl ?_ ?_ 4).1
    · intro d b x hd h i hi
      have h1 := h i hi
      have := hd i hi
      rw [hG x i hi] at h1
      simp only [solve]
      rw [div_eq_iff (by linarith)]
      linear_combination -h1
    · intro c hc
      have : c = 0 := by simpa using hc
      subst this
      rw [hvs]
      ext <;> simp [seg3, Cone.normalCorrection, tnorm, sqrt_zero]
    · intro c hc
      have : c = 0 := by simpa using hc
      subst this
      rw [hvs]
      refine ⟨⟨by simp [seg3, f, setSeg3], by simp [seg3, f, setSeg3]⟩, ?_, ?_, ?_⟩ <;> simp [seg3, f, setSeg3]

/-! ## C49: contact impulses -/

/-- **C49, feasibility.** Once an iteration has been made, the impulses are in the cones -/
theorem C49_feasible {n sz : ℕ} {cref R corr : ℕ → K} {mu relAcc : K} {maxIt : ℕ} {cones : List (Cone K)} {guess : Option (ℕ → K)}
    {r : ℕ → K} (hit : maxIt ≠ 0) (hmu : ∀ c ∈ cones, 0 ≤ c.mu)
    (hR : ∀ c < cones.length, R (3 * c) = R (3 * c + 1) ∧ 0 < R (3 * c) + mu ∧ 0 < R (3 * c + 2) + mu)
    (h : computeContactImpulses n sz cref R corr mu relAcc maxIt cones guess = some r) :
    ∀ c < cones.length, seg3 r c ∈ Coulomb (cones.getD c ⟨0⟩).mu := by
  intro c hc
  have key : ∀ (m : ℕ) (pn : K) (l : ℕ → K) (k : ℕ), k ≠ 0 →
      seg3 (impulseLoop m cref R mu relAcc cones k pn l) c ∈ Coulomb (cones.getD c ⟨0⟩).mu := by
    intro m pn l k
    induction k generalizing pn l with
    | zero => intro h; exact absurd rfl h
    | succ k ih =>
      intro _
      have base : seg3 (impulseSweep cref R mu cones l) c ∈ Coulomb (cones.getD c ⟨0⟩).mu := by
        obtain ⟨l', e⟩ := impulseSweep_seg cref R mu cones l hc
        obtain ⟨a, b, d⟩ := hR c hc
        rw [e]; exact impulseNew_mem (cone_mu hmu hc) l l' a b d
      unfold impulseLoop
      simp only
      split
      · exact base
      · by_cases h0 : k = 0
        · subst h0; exact base
        · exact ih _ _ h0
  unfold computeContactImpulses at h
  dsimp only at h
  generalize (if guess.isSome then n else sz) = m at h
  by_cases hm : maxIt ≠ 0 ∧ min m n < 3 * cones.length
  · rw [if_pos hm] at h; simp at h
  · rw [if_neg hm] at h
    rw [← Option.some_injective _ h]
    exact key _ _ _ _ hit

/-- **C49.** An iteration leaves the impulses alone exactly when they are the solution of the regularised problem: every contact obeys
Coulomb's law with velocity `c_ref + R λ` -/
theorem C49_fixed_points {cref R : ℕ → K} {mu : K} {cones : List (Cone K)} (lam : ℕ → K) (hmu : ∀ c ∈ cones, 0 ≤ c.mu)
    (hR : ∀ c < cones.length, R (3 * c) = R (3 * c + 1) ∧ 0 < R (3 * c) + mu ∧ 0 < R (3 * c + 2) + mu) :
    impulseSweep cref R mu cones lam = lam ↔
      ∀ c < cones.length, CoulombLaw (cones.getD c ⟨0⟩).mu (seg3 lam c) (seg3 (fun i => cref i + R i * lam i) c) :=
  impulseSweep_fixed lam hmu hR

omit [IsStrictOrderedRing K] in
/-- **Finding (C49).** The argument `constraint_correction` has no effect: for the documented role it should shift the reference velocity. A
unit correction on a contact at rest should push it; the impulses are those without the correction. -/
theorem C49_correction_counterexample (n sz : ℕ) (cref R : ℕ → K) (mu relAcc : K) (maxIt : ℕ) (cones : List (Cone K))
    (guess : Option (ℕ → K)) (corr : ℕ → K) :
    computeContactImpulses n sz cref R corr mu relAcc maxIt cones guess
      = computeContactImpulses n sz cref R 0 mu relAcc maxIt cones guess := rfl

/-- the solution of the problem that takes the correction into account, for one contact pushed down by the correction, is not the zero
impulse that the function returns -/
theorem C49_correction_wrong : ∃ (R corr : ℕ → K) (r : ℕ → K),
    computeContactImpulses 3 3 (fun _ => 0) R corr 1 0 1 [⟨1⟩] none = some r ∧
    (0 < R 0 ∧ R 0 = R 1 ∧ 0 < R 2) ∧
    ¬ CoulombLaw 1 (seg3 r 0) (seg3 (fun i => corr i + R i * r i) 0) := by
  refine ⟨fun _ => 1, fun i => if i = 2 then -1 else 0, fun _ => 0, ?_, ⟨zero_lt_one, rfl, zero_lt_one⟩, fun h => ?_⟩
  · have hR : ∀ c < [(⟨1⟩ : Cone K)].length, (fun _ : ℕ => (1 : K)) (3 * c) = (fun _ : ℕ => (1 : K)) (3 * c + 1) ∧
        0 < (fun _ : ℕ => (1 : K)) (3 * c) + 1 ∧ 0 < (fun _ : ℕ => (1 : K)) (3 * c + 2) + 1 := by
      intro c _
      have : (0 : K) < 1 + 1 := by linarith [zero_lt_one (α := K)]
      exact ⟨rfl, this, this⟩
    have hs : impulseSweep (fun _ => (0 : K)) (fun _ => 1) 1 [(⟨1⟩ : Cone K)] (fun _ => 0) = fun _ => 0 := by
      rw [C49_fixed_points _ (by simp) hR]
      intro c hc
      have : c = 0 := by simpa using hc
      subst this
      refine ⟨⟨by simp [seg3], by simp [seg3]⟩, ?_, ?_, ?_⟩ <;> simp [seg3]
    have e : impulseLoop 3 (fun _ => (0 : K)) (fun _ => 1) 1 0 [(⟨1⟩ : Cone K)] (0 + 1) (normInf 3 (fun _ => 0)) (fun _ => 0) = fun _ => 0 := by
      unfold impulseLoop
      simp only [hs]
      simp [impulseLoop]
    have h3 : ¬ ((1 : ℕ) ≠ 0 ∧ min 3 3 < 3 * [(⟨1⟩ : Cone K)].length) := by simp
    unfold computeContactImpulses
    simp only [Option.isSome_none, Bool.false_eq_true, if_false, if_neg h3]
    exact congrArg some e
  · have := h.noPenetration
    simp [seg3] at this
    linarith [zero_lt_one (α := K)]

omit [IsStrictOrderedRing K] in
/-- **Finding (C49).** On a data that has not been through another contact algorithm, calling `computeContactImpulses` without a guess
writes past the end of an empty vector -/
theorem C49_fresh_data_counterexample (cref R corr : ℕ → K) (mu relAcc : K) {maxIt : ℕ} (hit : maxIt ≠ 0) (cone : Cone K)
    (cones : List (Cone K)) :
    computeContactImpulses (3 * (cones.length + 1)) 0 cref R corr mu relAcc maxIt (cone :: cones) none = none := by
  unfold computeContactImpulses
  simp only [Option.isSome_none, Bool.false_eq_true, if_false, List.length_cons]
  rw [if_pos ⟨hit, by omega⟩]

omit [IsStrictOrderedRing K] in
/-- with a guess, and one cone per three rows, the result is defined -/
theorem C49_defined (sz : ℕ) (cref R corr : ℕ → K) (mu relAcc : K) (maxIt : ℕ) (cones : List (Cone K)) (guess : ℕ → K) :
    (computeContactImpulses (3 * cones.length) sz cref R corr mu relAcc maxIt cones (some guess)).isSome := by
  unfold computeContactImpulses
  simp


/-! ## C51: forces of contact inverse dynamics -/

/-- **C51, partial.** For contacts with the environment (`joint2 = 0`), the forces given to the inverse dynamics do on any motion of the
bodies (the environment not moving) the work of the contact forces on the contact points. Missing: contacts between two bodies, where it is
false, see `C51_counterexample`. -/
theorem C51_partial {n : ℕ} (contacts : List (ContactPair K)) (lam : ℕ → K)
    (hj : ∀ c ∈ contacts, c.joint1 < n ∧ c.joint2 = 0) (V : ℕ → Motion K) (h0 : V 0 = 0) :
    (∑ i ∈ Finset.range n, (V i).dot (contactFext contacts lam i)) =
      ((List.range contacts.length).map (fun k => (seg3 lam k).dot
        (((contacts.getD k default).placement1.actInv (V (contacts.getD k default).joint1)).lin))).sum := by
  have h := contactFext_power n contacts lam V
    (fun c hc => ⟨(hj c hc).1, lt_of_le_of_lt (by rw [(hj c hc).2]; exact Nat.zero_le _) (hj c hc).1⟩)
  rw [h]
  congr 1
  refine List.map_congr_left (fun k hk => ?_)
  have hk : k < contacts.length := by simpa using hk
  have hm : contacts.getD k default ∈ contacts := by
    rw [show contacts.getD k default = contacts[k] by simp [hk]]; exact List.getElem_mem hk
  rw [(hj _ hm).2, h0]
  simp [SE3.actInv, V3.dot]

/-- **Finding (C51).** A contact between two bodies at the same place: both receive the same force, instead of opposite ones. The net force on
the system is `2 λ`, not zero; the work on a common motion of the two bodies is `2`, whereas a contact force does none. -/
theorem C51_counterexample :
    let c : ContactPair K := ⟨1, 2, 1, 1⟩
    let lam : ℕ → K := setSeg3 (fun _ => 0) 0 ⟨0, 0, 1⟩
    contactFext [c] lam 1 = ⟨⟨0, 0, 1⟩, 0⟩ ∧ contactFext [c] lam 2 = ⟨⟨0, 0, 1⟩, 0⟩ ∧
    contactFext [c] lam 1 + contactFext [c] lam 2 ≠ 0 := by
  intro c lam
  have h1 : contactFext [c] lam 1 = ⟨⟨0, 0, 1⟩, 0⟩ := by
    simp [contactFext, c, lam, seg3, setSeg3, SE3.actF]
    ext <;> simp
  have h2 : contactFext [c] lam 2 = ⟨⟨0, 0, 1⟩, 0⟩ := by
    simp [contactFext, c, lam, seg3, setSeg3, SE3.actF]
    ext <;> simp
  refine ⟨h1, h2, fun h => ?_⟩
  have := congrArg (fun f : Force K => f.lin.z) h
  rw [h1, h2] at this
  simp at this

/-- contacts with the environment meet the hypotheses of `C51_partial` -/
example : ∀ c ∈ [(⟨1, 0, 1, 1⟩ : ContactPair ℝ), ⟨2, 0, 1, 1⟩], c.joint1 < 3 ∧ c.joint2 = 0 := by simp

end Pin
