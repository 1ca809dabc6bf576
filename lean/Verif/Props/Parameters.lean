import Verif.Spatial.Parameters
import Mathlib.Analysis.Calculus.Deriv.Pow
import Mathlib.Tactic.FieldSimp
import Mathlib.Tactic.Positivity

/-! # C09: inertial parametrisations -/

namespace Pin
universe u

section field
variable {K : Type u} [Field K]

/-- the ten dynamic parameters determine the inertia, for a non-zero mass -/
theorem C09_inertia_roundtrip (I : Inertia K) (h : I.mass ≠ 0) : Inertia.ofDyn I.toDyn = I := by
  have e : ∀ a : K, I.mass * a / I.mass = a := fun a => mul_div_cancel_left₀ a h
  ext <;> simp [Inertia.ofDyn, Inertia.toDyn, Sym3.subAlphaSkewSquare, Sym3.alphaSkewSquare, e]
  all_goals ring

/-- every vector with a non-zero mass is the vector of dynamic parameters of an inertia -/
theorem C09_parameters_roundtrip (p : V10 K) (h : p.p0 ≠ 0) : (Inertia.ofDyn p).toDyn = p := by
  ext <;> simp [Inertia.ofDyn, Inertia.toDyn, Sym3.subAlphaSkewSquare, Sym3.alphaSkewSquare] <;> field_simp <;> ring

/-- The dynamic parameters are what they are documented to be: mass, first moment, and rotational inertia at the
origin; the inertia acts on motions linearly in them. -/
theorem C09_parameters (I : Inertia K) (w : V3 K) :
    I.toDyn.p0 = I.mass ∧ (⟨I.toDyn.p1, I.toDyn.p2, I.toDyn.p3⟩ : V3 K) = I.mass • I.lever ∧
    (⟨I.toDyn.p4, I.toDyn.p5, I.toDyn.p7, I.toDyn.p5, I.toDyn.p6, I.toDyn.p8, I.toDyn.p7, I.toDyn.p8, I.toDyn.p9⟩ :
      M3 K).mulVec w = I.rotI.matrix.mulVec w - I.mass • I.lever.cross (I.lever.cross w) := by
  refine ⟨rfl, rfl, ?_⟩
  ext <;> simp [Inertia.toDyn, Sym3.subAlphaSkewSquare, Sym3.matrix] <;> ring

variable [NeZero (2 : K)]

/-- pseudo-inertia and dynamic parameters are mutually inverse; symmetric `sigma` is what `FromMatrix` of a symmetric
matrix and all the other constructors give -/
theorem C09_pseudo_roundtrip (p : V10 K) : (PseudoInertia.ofDyn p).toDyn = p := by
  have h2 : (2 : K) ≠ 0 := NeZero.ne _
  ext <;> simp [PseudoInertia.ofDyn, PseudoInertia.toDyn] <;> field_simp <;> ring

theorem C09_pseudo_roundtrip' (P : PseudoInertia K) (h : P.sigma.tr = P.sigma) :
    PseudoInertia.ofDyn P.toDyn = P := by
  have h2 : (2 : K) ≠ 0 := NeZero.ne _
  have h10 : P.sigma.m10 = P.sigma.m01 := (congrArg M3.m01 h)
  have h20 : P.sigma.m20 = P.sigma.m02 := (congrArg M3.m02 h)
  have h21 : P.sigma.m21 = P.sigma.m12 := (congrArg M3.m12 h)
  ext <;> simp [PseudoInertia.ofDyn, PseudoInertia.toDyn, h10, h20, h21] <;> field_simp <;> ring

/-- inertia to pseudo-inertia and back -/
theorem C09_inertia_pseudo (I : Inertia K) (h : I.mass ≠ 0) : (PseudoInertia.ofInertia I).toInertia = I := by
  rw [PseudoInertia.toInertia, PseudoInertia.ofInertia, C09_pseudo_roundtrip, C09_inertia_roundtrip I h]
end field

section ordered
variable {K : Type u} [Field K] [LinearOrder K] [IsStrictOrderedRing K]

/-- quadratic form of the rotational inertia of `toInertia()`, from the pseudo-inertia form -/
theorem rotI_of_form (P : PseudoInertia K) (hs : P.sigma.tr = P.sigma) (hm : P.mass ≠ 0) (w : V3 K) :
    P.toInertia.rotI.vtiv w =
      P.form ⟨0, -w.z, w.y⟩ (-(P.h.dot ⟨0, -w.z, w.y⟩) / P.mass) +
      P.form ⟨w.z, 0, -w.x⟩ (-(P.h.dot ⟨w.z, 0, -w.x⟩) / P.mass) +
      P.form ⟨-w.y, w.x, 0⟩ (-(P.h.dot ⟨-w.y, w.x, 0⟩) / P.mass) := by
  have h10 : P.sigma.m10 = P.sigma.m01 := (congrArg M3.m01 hs)
  have h20 : P.sigma.m20 = P.sigma.m02 := (congrArg M3.m02 hs)
  have h21 : P.sigma.m21 = P.sigma.m12 := (congrArg M3.m12 hs)
  simp [PseudoInertia.toInertia, Inertia.ofDyn, PseudoInertia.toDyn, Sym3.vtiv, Sym3.alphaSkewSquare,
    PseudoInertia.form, V3.dot, M3.mulVec, h10, h20, h21]
  field_simp
  ring

/-- A pseudo-inertia which is positive definite gives a physical inertia: positive mass and positive definite
rotational inertia, hence positive kinetic energy for every non-zero motion. -/
theorem C09_pseudo_physical (P : PseudoInertia K) (hs : P.sigma.tr = P.sigma)
    (hpd : ∀ (x : V3 K) (t : K), x ≠ 0 ∨ t ≠ 0 → 0 < P.form x t) :
    0 < P.toInertia.mass ∧ (∀ w : V3 K, w ≠ 0 → 0 < P.toInertia.rotI.vtiv w) ∧
      ∀ v : Motion K, v ≠ 0 → 0 < P.toInertia.vtiv v := by
  have hm : 0 < P.mass := by
    have := hpd 0 1 (Or.inr one_ne_zero)
    simpa [PseudoInertia.form, V3.dot, M3.mulVec] using this
  have hnn : ∀ x t, 0 ≤ P.form x t := by
    intro x t
    by_cases h : x ≠ 0 ∨ t ≠ 0
    · exact (hpd x t h).le
    · push Not at h
      rw [h.1, h.2]
      simp [PseudoInertia.form, V3.dot, M3.mulVec]
  have hw : ∀ w : V3 K, w ≠ 0 → 0 < P.toInertia.rotI.vtiv w := by
    intro w hw
    rw [rotI_of_form P hs hm.ne']
    by_cases hx : w.y = 0 ∧ w.z = 0
    · have hx' : w.x ≠ 0 := by
        intro h; apply hw; ext
        · exact h
        · exact hx.1
        · exact hx.2
      have := hpd ⟨w.z, 0, -w.x⟩ (-(P.h.dot ⟨w.z, 0, -w.x⟩) / P.mass)
        (Or.inl fun h => hx' (neg_eq_zero.1 (congrArg V3.z h)))
      have n1 := hnn ⟨0, -w.z, w.y⟩ (-(P.h.dot ⟨0, -w.z, w.y⟩) / P.mass)
      have n2 := hnn ⟨-w.y, w.x, 0⟩ (-(P.h.dot ⟨-w.y, w.x, 0⟩) / P.mass)
      linarith
    · have := hpd ⟨0, -w.z, w.y⟩ (-(P.h.dot ⟨0, -w.z, w.y⟩) / P.mass)
        (Or.inl fun h => hx ⟨congrArg V3.z h, neg_eq_zero.1 (congrArg V3.y h)⟩)
      have n1 := hnn ⟨w.z, 0, -w.x⟩ (-(P.h.dot ⟨w.z, 0, -w.x⟩) / P.mass)
      have n2 := hnn ⟨-w.y, w.x, 0⟩ (-(P.h.dot ⟨-w.y, w.x, 0⟩) / P.mass)
      linarith
  have hm' : 0 < P.toInertia.mass := hm
  refine ⟨hm', hw, fun v hv => ?_⟩
  rw [Inertia.vtiv_split]
  by_cases ha : v.ang = 0
  · have hl : v.lin ≠ 0 := fun h => hv (Motion.ext h ha)
    have : 0 < (v.lin - P.toInertia.lever.cross v.ang).sqNorm := by
      rcases (Inertia.sqNorm_nonneg (v.lin - P.toInertia.lever.cross v.ang)).lt_or_eq with h | h
      · exact h
      · exfalso
        have := Inertia.eq_zero_of_sqNorm h.symm
        rw [ha] at this
        apply hl
        have hc : P.toInertia.lever.cross (0 : V3 K) = 0 := by ext <;> simp
        rwa [hc, sub_zero] at this
    have h0 : P.toInertia.rotI.vtiv v.ang = 0 := by rw [ha]; simp [Sym3.vtiv]
    rw [h0, add_zero]
    exact mul_pos hm' this
  · exact add_pos_of_nonneg_of_pos (mul_nonneg hm'.le (Inertia.sqNorm_nonneg _)) (hw _ ha)
end ordered

/-! ## log-Cholesky parameters -/

open Real in
/-- the pseudo-inertia form is a sum of four squares -/
theorem logCholesky_form (l : LogCholesky) (x : V3 ℝ) (t : ℝ) :
    l.toPseudo.form x t = exp (2 * l.p.p0) *
      ((exp l.p.p1 * x.x) ^ 2 + (l.p.p4 * x.x + exp l.p.p2 * x.y) ^ 2
        + (l.p.p6 * x.x + l.p.p5 * x.y + exp l.p.p3 * x.z) ^ 2
        + (l.p.p7 * x.x + l.p.p8 * x.y + l.p.p9 * x.z + t) ^ 2) := by
  simp [LogCholesky.toPseudo, LogCholesky.toDyn, PseudoInertia.ofDyn, PseudoInertia.form, V3.dot, M3.mulVec]
  ring

/-- Every log-Cholesky vector gives a pseudo-inertia which is symmetric positive definite, and an inertia with
positive mass, positive definite rotational inertia and positive kinetic energy. -/
theorem C09_logCholesky (l : LogCholesky) :
    (∀ (x : V3 ℝ) (t : ℝ), x ≠ 0 ∨ t ≠ 0 → 0 < l.toPseudo.form x t) ∧
    0 < l.toInertia.mass ∧ (∀ w : V3 ℝ, w ≠ 0 → 0 < l.toInertia.rotI.vtiv w) ∧
    (∀ v : Motion ℝ, v ≠ 0 → 0 < l.toInertia.vtiv v) ∧
    PseudoInertia.ofInertia l.toInertia = l.toPseudo := by
  have hpd : ∀ (x : V3 ℝ) (t : ℝ), x ≠ 0 ∨ t ≠ 0 → 0 < l.toPseudo.form x t := by
    intro x t h
    rw [logCholesky_form]
    apply mul_pos (Real.exp_pos _)
    have e1 := Real.exp_pos l.p.p1; have e2 := Real.exp_pos l.p.p2; have e3 := Real.exp_pos l.p.p3
    have q1 := sq_nonneg (Real.exp l.p.p1 * x.x)
    have q2 := sq_nonneg (l.p.p4 * x.x + Real.exp l.p.p2 * x.y)
    have q3 := sq_nonneg (l.p.p6 * x.x + l.p.p5 * x.y + Real.exp l.p.p3 * x.z)
    have q4 := sq_nonneg (l.p.p7 * x.x + l.p.p8 * x.y + l.p.p9 * x.z + t)
    by_contra hc
    have z1 : Real.exp l.p.p1 * x.x = 0 := pow_eq_zero_iff (two_ne_zero) |>.1 (by linarith)
    have z2 : l.p.p4 * x.x + Real.exp l.p.p2 * x.y = 0 := pow_eq_zero_iff (two_ne_zero) |>.1 (by linarith)
    have z3 : l.p.p6 * x.x + l.p.p5 * x.y + Real.exp l.p.p3 * x.z = 0 :=
      pow_eq_zero_iff (two_ne_zero) |>.1 (by linarith)
    have z4 : l.p.p7 * x.x + l.p.p8 * x.y + l.p.p9 * x.z + t = 0 := pow_eq_zero_iff (two_ne_zero) |>.1 (by linarith)
    have hx : x.x = 0 := (mul_eq_zero.1 z1).resolve_left e1.ne'
    rw [hx, mul_zero, zero_add] at z2
    have hy : x.y = 0 := (mul_eq_zero.1 z2).resolve_left e2.ne'
    rw [hx, hy, mul_zero, mul_zero, zero_add, zero_add] at z3
    have hz : x.z = 0 := (mul_eq_zero.1 z3).resolve_left e3.ne'
    rw [hx, hy, hz, mul_zero, mul_zero, mul_zero, zero_add, zero_add, zero_add] at z4
    rcases h with h | h
    · exact h (V3.ext hx hy hz)
    · exact h z4
  have e : l.toInertia = l.toPseudo.toInertia := by
    rw [PseudoInertia.toInertia, LogCholesky.toPseudo, C09_pseudo_roundtrip]; rfl
  have hs : l.toPseudo.sigma.tr = l.toPseudo.sigma := rfl
  obtain ⟨h1, h2, h3⟩ := C09_pseudo_physical l.toPseudo hs hpd
  rw [← e] at h1 h2 h3
  refine ⟨hpd, h1, h2, h3, ?_⟩
  rw [PseudoInertia.ofInertia, LogCholesky.toInertia, C09_parameters_roundtrip _ h1.ne']
  rfl

/-- `calculateJacobian()` is the derivative of the dynamic parameters: along every line through the parameters, the
velocity of each dynamic parameter is the Jacobian times the direction. -/
theorem C09_logCholesky_jacobian (l d : V10 ℝ) (r : Fin 10) :
    HasDerivAt (fun s : ℝ => (LogCholesky.mk ⟨l.p0 + s * d.p0, l.p1 + s * d.p1, l.p2 + s * d.p2, l.p3 + s * d.p3,
        l.p4 + s * d.p4, l.p5 + s * d.p5, l.p6 + s * d.p6, l.p7 + s * d.p7, l.p8 + s * d.p8,
        l.p9 + s * d.p9⟩).toDyn.get r)
      (∑ c, ((LogCholesky.mk l).jacobian r).get c * d.get c) 0 := by
  have hl : ∀ a b : ℝ, HasDerivAt (fun s : ℝ => a + s * b) b 0 := fun a b => by
    simpa using ((hasDerivAt_id (0 : ℝ)).mul_const b).const_add a
  have hk : HasDerivAt (fun s : ℝ => Real.exp (2 * (l.p0 + s * d.p0))) (Real.exp (2 * l.p0) * (2 * d.p0)) 0 := by
    simpa using ((hl l.p0 d.p0).const_mul 2).exp
  have he : ∀ a b : ℝ, HasDerivAt (fun s : ℝ => Real.exp (a + s * b)) (Real.exp a * b) 0 := fun a b => by
    simpa using (hl a b).exp
  have e2 : ∀ a : ℝ, Real.exp (2 * a) = Real.exp a ^ 2 := fun a => by
    rw [two_mul, Real.exp_add, sq]
  have h1 := he l.p1 d.p1; have h2 := he l.p2 d.p2; have h3 := he l.p3 d.p3
  have h4 := hl l.p4 d.p4; have h5 := hl l.p5 d.p5; have h6 := hl l.p6 d.p6
  have h7 := hl l.p7 d.p7; have h8 := hl l.p8 d.p8; have h9 := hl l.p9 d.p9
  have hs : ∀ a b : V10 ℝ, ∑ c, a.get c * b.get c = a.p0 * b.p0 + a.p1 * b.p1 + a.p2 * b.p2 + a.p3 * b.p3 +
      a.p4 * b.p4 + a.p5 * b.p5 + a.p6 * b.p6 + a.p7 * b.p7 + a.p8 * b.p8 + a.p9 * b.p9 := by
    intro a b; simp only [Fin.sum_univ_succ]; simp [V10.get]; ring
  rw [hs]
  fin_cases r
  · refine (hk.const_mul 1).congr_deriv ?_
    simp [LogCholesky.jacobian]; ring
  · refine (h7.mul hk).congr_deriv ?_
    simp [LogCholesky.jacobian]; ring
  · refine (h8.mul hk).congr_deriv ?_
    simp [LogCholesky.jacobian]; ring
  · refine (h9.mul hk).congr_deriv ?_
    simp [LogCholesky.jacobian]; ring
  · refine (((((h5.pow 2).add (h8.pow 2)).add (h9.pow 2)).add (h2.pow 2)).add (h3.pow 2) |>.mul hk).congr_deriv ?_
    simp [LogCholesky.jacobian, e2]; ring
  · refine (((h4.neg.mul h2).sub (h6.mul h5)).sub (h7.mul h8) |>.mul hk).congr_deriv ?_
    simp [LogCholesky.jacobian, e2]; ring
  · refine ((((((h4.pow 2).add (h6.pow 2)).add (h7.pow 2)).add (h9.pow 2)).add (h1.pow 2)).add (h3.pow 2)
      |>.mul hk).congr_deriv ?_
    simp [LogCholesky.jacobian, e2]; ring
  · refine ((h6.neg.mul h3).sub (h7.mul h9) |>.mul hk).congr_deriv ?_
    simp [LogCholesky.jacobian, e2]; ring
  · refine ((h5.neg.mul h3).sub (h8.mul h9) |>.mul hk).congr_deriv ?_
    simp [LogCholesky.jacobian, e2]; ring
  · refine (((((((h4.pow 2).add (h6.pow 2)).add (h5.pow 2)).add (h7.pow 2)).add (h8.pow 2)).add (h1.pow 2)).add (h2.pow 2)
      |>.mul hk).congr_deriv ?_
    simp [LogCholesky.jacobian, e2]; ring

/-! ## the hypotheses are met -/
example : (⟨2, ⟨1, 0, 3⟩, ⟨1, 0, 2, 0, 0, 2⟩⟩ : Inertia ℚ).mass ≠ 0 ∧
    (⟨2, ⟨1, 0, 3⟩, ⟨1, 0, 2, 0, 0, 2⟩⟩ : Inertia ℚ).toDyn = ⟨2, 2, 0, 6, 19, 0, 22, -6, 0, 4⟩ := by decide +kernel
example : (⟨2, ⟨1, 0, 0⟩, ⟨3, 1, 0, 1, 3, 0, 0, 0, 1⟩⟩ : PseudoInertia ℚ).sigma.tr = ⟨3, 1, 0, 1, 3, 0, 0, 0, 1⟩ := rfl
/-- a positive definite pseudo-inertia -/
example (x : V3 ℚ) (t : ℚ) (h : x ≠ 0 ∨ t ≠ 0) :
    0 < (⟨1, 0, 1⟩ : PseudoInertia ℚ).form x t := by
  have e : (⟨1, 0, 1⟩ : PseudoInertia ℚ).form x t = x.x ^ 2 + x.y ^ 2 + x.z ^ 2 + t ^ 2 := by
    simp [PseudoInertia.form, V3.dot, M3.mulVec]; ring
  rw [e]
  have q1 := sq_nonneg x.x; have q2 := sq_nonneg x.y; have q3 := sq_nonneg x.z; have q4 := sq_nonneg t
  by_contra hc
  have z1 : x.x = 0 := pow_eq_zero_iff (two_ne_zero) |>.1 (by linarith)
  have z2 : x.y = 0 := pow_eq_zero_iff (two_ne_zero) |>.1 (by linarith)
  have z3 : x.z = 0 := pow_eq_zero_iff (two_ne_zero) |>.1 (by linarith)
  have z4 : t = 0 := pow_eq_zero_iff (two_ne_zero) |>.1 (by linarith)
  rcases h with h | h
  · exact h (V3.ext z1 z2 z3)
  · exact h z4

end Pin
