import Mathlib.Tactic.Linarith
import Mathlib.Tactic.FieldSimp
import Mathlib.Tactic.Positivity
import Verif.Contact.Defs
import Verif.Contact.Spec

/-! # Lemmas on friction cones -/

namespace Pin
universe u
variable {K : Type u} [Field K] [LinearOrder K] [IsStrictOrderedRing K] [HasSqrt K]

theorem sqrt_sq {a : K} (h : 0 ≤ a) : HasSqrt.sqrt a * HasSqrt.sqrt a = a := HasSqrt.sq a h
theorem sqrt_nn (a : K) : 0 ≤ HasSqrt.sqrt a := HasSqrt.nonneg a

/-- comparison of non-negative numbers through their squares -/
theorem le_of_sq {a b : K} (hb : 0 ≤ b) (h : a * a ≤ b * b) : a ≤ b := by
  by_contra hc
  push Not at hc
  nlinarith

theorem sq_le {a b : K} (ha : 0 ≤ a) (h : a ≤ b) : a * a ≤ b * b := by nlinarith

theorem eq_of_sq {a b : K} (ha : 0 ≤ a) (hb : 0 ≤ b) (h : a * a = b * b) : a = b :=
  le_antisymm (le_of_sq hb h.le) (le_of_sq ha h.ge)

theorem sqrt_pos {a : K} (h : 0 < a) : 0 < HasSqrt.sqrt a := by
  rcases (sqrt_nn a).lt_or_eq with h1 | h1
  · exact h1
  · have := sqrt_sq h.le
    rw [← h1] at this; nlinarith

theorem sqrt_of_sq {a : K} (h : 0 ≤ a) : HasSqrt.sqrt (a * a) = a :=
  eq_of_sq (sqrt_nn _) h (sqrt_sq (mul_self_nonneg a))

theorem sqrt_zero : HasSqrt.sqrt (0 : K) = 0 := by
  have := sqrt_of_sq (le_refl (0 : K)); rwa [mul_zero] at this

theorem tnorm_sq (f : V3 K) : tnorm f * tnorm f = f.x * f.x + f.y * f.y :=
  sqrt_sq (add_nonneg (mul_self_nonneg _) (mul_self_nonneg _))

theorem tnorm_nn (f : V3 K) : 0 ≤ tnorm f := sqrt_nn _

theorem tnorm_unique {f : V3 K} {t : K} (ht : 0 ≤ t) (h : t * t = f.x * f.x + f.y * f.y) : t = tnorm f :=
  eq_of_sq ht (tnorm_nn f) (by rw [h, tnorm_sq])

/-- Cauchy-Schwarz in the tangential plane -/
theorem tnorm_cs (f v : V3 K) : f.x * v.x + f.y * v.y ≤ tnorm f * tnorm v := by
  apply le_of_sq (mul_nonneg (tnorm_nn f) (tnorm_nn v))
  have h1 := tnorm_sq f
  have h2 := tnorm_sq v
  have e : tnorm f * tnorm v * (tnorm f * tnorm v) = (tnorm f * tnorm f) * (tnorm v * tnorm v) := by ring
  rw [e, h1, h2]
  nlinarith [mul_self_nonneg (f.x * v.y - f.y * v.x)]

theorem tnorm_cs' (f v : V3 K) : -(tnorm f * tnorm v) ≤ f.x * v.x + f.y * v.y := by
  have := tnorm_cs ⟨-f.x, -f.y, 0⟩ v
  have e : tnorm (⟨-f.x, -f.y, 0⟩ : V3 K) = tnorm f := by unfold tnorm; congr 1; ring
  rw [e] at this; simp only at this; linarith

theorem tnorm_smul {k : K} (hk : 0 ≤ k) (f : V3 K) : tnorm (k • f) = k * tnorm f := by
  symm
  apply tnorm_unique (mul_nonneg hk (tnorm_nn f))
  have := tnorm_sq f
  simp only [V3.smul_x, V3.smul_y]; linear_combination k * k * this

theorem mem_coulomb {mu : K} (hmu : 0 ≤ mu) {f : V3 K} : f ∈ Coulomb mu ↔ 0 ≤ f.z ∧ tnorm f ≤ mu * f.z := by
  constructor
  · rintro ⟨h1, h2⟩
    exact ⟨h1, le_of_sq (mul_nonneg hmu h1) (by rw [tnorm_sq]; exact h2)⟩
  · rintro ⟨h1, h2⟩
    exact ⟨h1, by rw [← tnorm_sq]; exact sq_le (tnorm_nn f) h2⟩

/-- the dual cone is the set the code tests -/
theorem mem_dual {mu : K} (hmu : 0 ≤ mu) {v : V3 K} : v ∈ DualOf (Coulomb mu) ↔ mu * tnorm v ≤ v.z := by
  constructor
  · intro h
    by_cases h0 : tnorm v = 0
    · have := h ⟨0, 0, 1⟩ ⟨zero_le_one, by simpa using mul_self_nonneg mu⟩
      simp only [V3.dot] at this
      rw [h0]; linarith
    · have hp : 0 < tnorm v := lt_of_le_of_ne (tnorm_nn v) (Ne.symm h0)
      have hs := tnorm_sq v
      have := h ⟨-(mu * v.x), -(mu * v.y), tnorm v⟩ ⟨hp.le, le_of_eq (by simp only; linear_combination -mu * mu * hs)⟩
      simp only [V3.dot] at this
      have e : -(mu * v.x) * v.x + -(mu * v.y) * v.y + tnorm v * v.z = tnorm v * (v.z - mu * tnorm v) := by
        linear_combination mu * hs
      rw [e] at this
      have := (mul_nonneg_iff_of_pos_left hp).1 this
      linarith
  · intro h f hf
    rw [mem_coulomb hmu] at hf
    have := tnorm_cs' f v
    have h1 : tnorm f * tnorm v ≤ mu * f.z * tnorm v := mul_le_mul_of_nonneg_right hf.2 (tnorm_nn v)
    have h2 : f.z * (mu * tnorm v) ≤ f.z * v.z := mul_le_mul_of_nonneg_left h hf.1
    simp only [V3.dot]; nlinarith

omit [HasSqrt K] in
/-- variational characterisation of the projection on a cone -/
theorem closest_of_var {C : Set (V3 K)} {x p : V3 K} (hp : p ∈ C) (h0 : (x - p).dot p = 0) (hy : ∀ y ∈ C, (x - p).dot y ≤ 0) :
    IsClosest C x p := by
  refine ⟨hp, fun y hyC hne => ?_⟩
  have h1 := hy y hyC
  have hd : 0 < (p - y).sqNorm := by
    rcases lt_or_eq_of_le (show 0 ≤ (p - y).sqNorm by
      simp only [V3.sqNorm]; nlinarith [mul_self_nonneg (p - y).x, mul_self_nonneg (p - y).y, mul_self_nonneg (p - y).z]) with h | h
    · exact h
    · exfalso; apply hne
      simp only [V3.sqNorm] at h
      have hx := mul_self_nonneg (p - y).x
      have hy' := mul_self_nonneg (p - y).y
      have hz := mul_self_nonneg (p - y).z
      have ex : (p - y).x = 0 := mul_self_eq_zero.1 (by linarith)
      have ey : (p - y).y = 0 := mul_self_eq_zero.1 (by linarith)
      have ez : (p - y).z = 0 := mul_self_eq_zero.1 (by linarith)
      simp only [V3.sub_x, V3.sub_y, V3.sub_z, sub_eq_zero] at ex ey ez
      ext
      · exact ex.symm
      · exact ey.symm
      · exact ez.symm
  simp only [V3.sqNorm, V3.dot, V3.sub_x, V3.sub_y, V3.sub_z] at *
  nlinarith

theorem scaled_normalize (x r : V3 K) (hr : 0 < r.sqNorm) :
    x.dot r.normalize • r.normalize = (x.dot r / r.sqNorm) • r := by
  unfold V3.normalize
  rw [if_pos hr]
  have hs := sqrt_sq hr.le
  have hp := sqrt_pos hr
  have hne := hp.ne'
  set n := HasSqrt.sqrt r.sqNorm
  have hne2 : r.sqNorm ≠ 0 := hr.ne'
  ext <;> simp only [V3.dot, V3.smul_x, V3.smul_y, V3.smul_z] <;> rw [← hs] <;> field_simp

/-- the three cases of `project` -/
theorem project_cases {c : Cone K} (hmu : 0 ≤ c.mu) (x : V3 K) :
    (c.mu * tnorm x ≤ -x.z ∧ c.project x = 0) ∨
    (tnorm x ≤ c.mu * x.z ∧ ¬ c.mu * tnorm x ≤ -x.z ∧ c.project x = x) ∨
    (0 < tnorm x ∧ -x.z < c.mu * tnorm x ∧ c.mu * x.z < tnorm x ∧
      c.project x = ((c.mu * tnorm x + x.z) / (1 + c.mu * c.mu)) • (⟨c.mu / tnorm x * x.x, c.mu / tnorm x * x.y, 1⟩ : V3 K)) := by
  unfold Cone.project
  simp only
  by_cases h1 : c.mu * tnorm x ≤ -x.z
  · left; exact ⟨h1, by rw [if_pos h1]⟩
  · right
    rw [if_neg h1]
    by_cases h2 : tnorm x ≤ c.mu * x.z
    · left; exact ⟨h2, h1, by rw [if_pos h2]⟩
    · right
      rw [if_neg h2]
      push Not at h1 h2
      have hp : 0 < tnorm x := by
        rcases (tnorm_nn x).lt_or_eq with h | h
        · exact h
        · exfalso
          rw [← h, mul_zero] at h1
          rw [← h] at h2
          nlinarith
      have hs := tnorm_sq x
      have hne := hp.ne'
      have hq : (⟨c.mu / tnorm x * x.x, c.mu / tnorm x * x.y, 1⟩ : V3 K).sqNorm = 1 + c.mu * c.mu := by
        simp only [V3.sqNorm]
        field_simp
        linear_combination -c.mu * c.mu * hs
      have hd : x.dot (⟨c.mu / tnorm x * x.x, c.mu / tnorm x * x.y, 1⟩ : V3 K) = c.mu * tnorm x + x.z := by
        simp only [V3.dot]
        field_simp
        linear_combination -c.mu * hs
      refine ⟨hp, h1, h2, ?_⟩
      rw [scaled_normalize _ _ (by rw [hq]; nlinarith), hq, hd]

/-- the projection satisfies the variational inequality -/
theorem project_var {c : Cone K} (hmu : 0 ≤ c.mu) (x : V3 K) :
    c.project x ∈ Coulomb c.mu ∧ (x - c.project x).dot (c.project x) = 0 ∧
      ∀ y ∈ Coulomb c.mu, (x - c.project x).dot y ≤ 0 := by
  rcases project_cases hmu x with ⟨h, e⟩ | ⟨h, h', e⟩ | ⟨h1, h2, h3, e⟩
  · rw [e]
    refine ⟨⟨le_refl _, by simp⟩, by simp [V3.dot], fun y hy => ?_⟩
    rw [mem_coulomb hmu] at hy
    have := tnorm_cs x y
    have a : tnorm x * tnorm y ≤ tnorm x * (c.mu * y.z) := mul_le_mul_of_nonneg_left hy.2 (tnorm_nn x)
    have b : c.mu * tnorm x * y.z ≤ -x.z * y.z := mul_le_mul_of_nonneg_right h hy.1
    simp only [V3.dot, V3.sub_x, V3.sub_y, V3.sub_z, V3.zero_x, V3.zero_y, V3.zero_z, sub_zero]
    nlinarith
  · rw [e]
    refine ⟨(mem_coulomb hmu).2 ⟨?_, h⟩, by simp [V3.dot], fun y hy => by simp [V3.dot]⟩
    by_contra hz
    push Not at hz
    have : c.mu * x.z ≤ 0 := mul_nonpos_of_nonneg_of_nonpos hmu hz.le
    have h0 : tnorm x = 0 := le_antisymm (by linarith) (tnorm_nn x)
    rw [h0, mul_zero] at h'; linarith
  · rw [e]
    have hs := tnorm_sq x
    have hne := h1.ne'
    have hk : 0 < 1 + c.mu * c.mu := by nlinarith
    have hkn := hk.ne'
    set a := (c.mu * tnorm x + x.z) / (1 + c.mu * c.mu) with ha
    have hap : 0 ≤ a := div_nonneg (by linarith) hk.le
    -- the residual
    set ee := (tnorm x - c.mu * x.z) / (1 + c.mu * c.mu) with he
    have hep : 0 ≤ ee := div_nonneg (by linarith) hk.le
    have hres : x - a • (⟨c.mu / tnorm x * x.x, c.mu / tnorm x * x.y, 1⟩ : V3 K)
        = ee • (⟨x.x / tnorm x, x.y / tnorm x, -c.mu⟩ : V3 K) := by
      ext
      · simp only [V3.sub_x, V3.smul_x, ha, he]; field_simp; ring
      · simp only [V3.sub_y, V3.smul_y, ha, he]; field_simp; ring
      · simp only [V3.sub_z, V3.smul_z, ha, he]; field_simp; ring
    rw [hres]
    refine ⟨(mem_coulomb hmu).2 ⟨by simpa using hap, ?_⟩, ?_, fun y hy => ?_⟩
    · rw [tnorm_smul hap]
      have : tnorm (⟨c.mu / tnorm x * x.x, c.mu / tnorm x * x.y, 1⟩ : V3 K) = c.mu := by
        symm; apply tnorm_unique hmu
        simp only
        field_simp
        linear_combination c.mu ^ 2 * hs
      rw [this]; simp only [V3.smul_z, mul_one]; linarith
    · simp only [V3.dot, V3.smul_x, V3.smul_y, V3.smul_z]
      field_simp
      linear_combination -ee * a * c.mu * hs
    · rw [mem_coulomb hmu] at hy
      have h4 := tnorm_cs x y
      have h5 : tnorm x * tnorm y ≤ tnorm x * (c.mu * y.z) := mul_le_mul_of_nonneg_left hy.2 h1.le
      have h6 : x.x / tnorm x * y.x + x.y / tnorm x * y.y - c.mu * y.z ≤ 0 := by
        have : x.x / tnorm x * y.x + x.y / tnorm x * y.y - c.mu * y.z
            = (x.x * y.x + x.y * y.y - tnorm x * (c.mu * y.z)) / tnorm x := by field_simp
        rw [this]
        exact div_nonpos_of_nonpos_of_nonneg (by linarith) h1.le
      simp only [V3.dot, V3.smul_x, V3.smul_y, V3.smul_z]
      have := mul_nonpos_of_nonneg_of_nonpos hep h6
      linarith

/-- the three cases of the projection on the dual cone -/
theorem dualProject_cases {c : Cone K} (hmu : 0 ≤ c.mu) (x : V3 K) :
    (tnorm x ≤ -c.mu * x.z ∧ c.dualProject x = 0) ∨
    (c.mu * tnorm x ≤ x.z ∧ ¬ tnorm x ≤ -c.mu * x.z ∧ c.dualProject x = x) ∨
    (0 < tnorm x ∧ -c.mu * x.z < tnorm x ∧ x.z < c.mu * tnorm x ∧
      c.dualProject x = ((tnorm x + c.mu * x.z) / (1 + c.mu * c.mu)) • (⟨x.x / tnorm x, x.y / tnorm x, c.mu⟩ : V3 K)) := by
  unfold Cone.dualProject
  simp only
  by_cases h1 : tnorm x ≤ -c.mu * x.z
  · left; exact ⟨h1, by rw [if_pos h1]⟩
  · right
    rw [if_neg h1]
    by_cases h2 : c.mu * tnorm x ≤ x.z
    · left; exact ⟨h2, h1, by rw [if_pos h2]⟩
    · right
      rw [if_neg h2]
      push Not at h1 h2
      have hp : 0 < tnorm x := by
        rcases (tnorm_nn x).lt_or_eq with h | h
        · exact h
        · exfalso
          rw [← h, mul_zero] at h2
          rw [← h] at h1
          nlinarith
      have hs := tnorm_sq x
      have hne := hp.ne'
      have hk : 0 < 1 + c.mu * c.mu := by nlinarith
      have hkn := hk.ne'
      have hq : (⟨x.x, x.y, c.mu * tnorm x⟩ : V3 K).sqNorm = tnorm x * tnorm x * (1 + c.mu * c.mu) := by
        simp only [V3.sqNorm]; linear_combination -hs
      have hd : x.dot (⟨x.x, x.y, c.mu * tnorm x⟩ : V3 K) = tnorm x * (tnorm x + c.mu * x.z) := by
        simp only [V3.dot]; linear_combination -hs
      refine ⟨hp, h1, h2, ?_⟩
      rw [scaled_normalize _ _ (by rw [hq]; exact mul_pos (mul_pos hp hp) hk), hq, hd]
      ext <;> simp only [V3.smul_x, V3.smul_y, V3.smul_z] <;> field_simp

/-- the projection on the dual cone satisfies the variational inequality, when `mu` is positive, or off the axis -/
theorem dualProject_var {c : Cone K} (hmu : 0 ≤ c.mu) (x : V3 K) (hx : 0 < c.mu ∨ tnorm x ≠ 0 ∨ x.z ≤ 0) :
    c.dualProject x ∈ DualOf (Coulomb c.mu) ∧ (x - c.dualProject x).dot (c.dualProject x) = 0 ∧
      ∀ y ∈ DualOf (Coulomb c.mu), (x - c.dualProject x).dot y ≤ 0 := by
  rcases dualProject_cases hmu x with ⟨h, e⟩ | ⟨h, h', e⟩ | ⟨h1, h2, h3, e⟩
  · rw [e]
    refine ⟨(mem_dual hmu).2 ?_, by simp [V3.dot], fun y hy => ?_⟩
    · have : tnorm (0 : V3 K) = 0 := by
        symm; exact tnorm_unique (le_refl _) (by simp)
      rw [this]; simp
    rw [mem_dual hmu] at hy
    have hcs := tnorm_cs x y
    have hz : x.z ≤ 0 := by
      rcases hx with hx | hx | hx
      · by_contra hz; push Not at hz
        have := tnorm_nn x
        nlinarith
      · by_contra hz; push Not at hz
        have h0 := tnorm_nn x
        have : 0 ≤ c.mu * x.z := mul_nonneg hmu hz.le
        exact hx (le_antisymm (by linarith) h0)
      · exact hx
    have a : tnorm x * tnorm y ≤ -c.mu * x.z * tnorm y := mul_le_mul_of_nonneg_right h (tnorm_nn y)
    have b : -x.z * (c.mu * tnorm y) ≤ -x.z * y.z := mul_le_mul_of_nonneg_left hy (by linarith)
    simp only [V3.dot, V3.sub_x, V3.sub_y, V3.sub_z, V3.zero_x, V3.zero_y, V3.zero_z, sub_zero]
    nlinarith
  · rw [e]
    exact ⟨(mem_dual hmu).2 h, by simp [V3.dot], fun y hy => by simp [V3.dot]⟩
  · rw [e]
    have hs := tnorm_sq x
    have hne := h1.ne'
    have hk : 0 < 1 + c.mu * c.mu := by nlinarith
    have hkn := hk.ne'
    set a := (tnorm x + c.mu * x.z) / (1 + c.mu * c.mu) with ha
    have hap : 0 ≤ a := div_nonneg (by linarith) hk.le
    set ee := (c.mu * tnorm x - x.z) / (1 + c.mu * c.mu) with he
    have hep : 0 ≤ ee := div_nonneg (by linarith) hk.le
    have hres : x - a • (⟨x.x / tnorm x, x.y / tnorm x, c.mu⟩ : V3 K)
        = ee • (⟨c.mu / tnorm x * x.x, c.mu / tnorm x * x.y, -1⟩ : V3 K) := by
      ext
      · simp only [V3.sub_x, V3.smul_x, ha, he]; field_simp; ring
      · simp only [V3.sub_y, V3.smul_y, ha, he]; field_simp; ring
      · simp only [V3.sub_z, V3.smul_z, ha, he]; field_simp; ring
    rw [hres]
    have ht1 : tnorm (⟨x.x / tnorm x, x.y / tnorm x, c.mu⟩ : V3 K) = 1 := by
      symm; apply tnorm_unique zero_le_one
      simp only
      field_simp
      linear_combination hs
    refine ⟨(mem_dual hmu).2 ?_, ?_, fun y hy => ?_⟩
    · rw [tnorm_smul hap, ht1]; simp only [V3.smul_z]; linarith
    · simp only [V3.dot, V3.smul_x, V3.smul_y, V3.smul_z]
      field_simp
      linear_combination -ee * a * c.mu * hs
    · rw [mem_dual hmu] at hy
      have h4 := tnorm_cs x y
      have h6 : c.mu / tnorm x * x.x * y.x + c.mu / tnorm x * x.y * y.y - y.z ≤ 0 := by
        have h7 : c.mu / tnorm x * x.x * y.x + c.mu / tnorm x * x.y * y.y = c.mu * ((x.x * y.x + x.y * y.y) / tnorm x) := by
          field_simp
        have h8 : (x.x * y.x + x.y * y.y) / tnorm x ≤ tnorm y := by
          rw [div_le_iff₀ h1]; linarith
        rw [h7]
        have := mul_le_mul_of_nonneg_left h8 hmu
        linarith
      simp only [V3.dot, V3.smul_x, V3.smul_y, V3.smul_z]
      have := mul_nonpos_of_nonneg_of_nonpos hep h6
      linarith

omit [HasSqrt K] in
/-- uniqueness of the point that satisfies the variational inequality -/
theorem var_unique {C : Set (V3 K)} {x p r : V3 K} (hp : IsClosest C x p) (hr : r ∈ C) (h0 : (x - r).dot r = 0)
    (hy : ∀ y ∈ C, (x - r).dot y ≤ 0) : r = p := by
  by_contra hne
  have h1 := hp.2 r hr hne
  have h2 := (closest_of_var hr h0 hy).2 p hp.1 (Ne.symm hne)
  exact lt_asymm h1 h2

/-- the residual of the projection is in the dual, up to the sign -/
theorem project_residual {c : Cone K} (hmu : 0 ≤ c.mu) (x : V3 K) : c.project x - x ∈ DualOf (Coulomb c.mu) := by
  intro f hf
  have := (project_var hmu x).2.2 f hf
  simp only [V3.dot, V3.sub_x, V3.sub_y, V3.sub_z] at *
  linarith

end Pin
