import Verif.Contact.ConeLemmas

/-! # Lemmas on the contact solvers -/

namespace Pin
universe u
variable {K : Type u} [Field K] [LinearOrder K]

theorem seg3_setSeg3 (x : ℕ → K) (c : ℕ) (s : V3 K) : seg3 (setSeg3 x c s) c = s := by
  unfold seg3 setSeg3
  simp

theorem setSeg3_out (x : ℕ → K) (c : ℕ) (s : V3 K) {i : ℕ} (h : i < 3 * c ∨ 3 * c + 3 ≤ i) : setSeg3 x c s i = x i := by
  unfold setSeg3
  rw [if_neg (by omega), if_neg (by omega), if_neg (by omega)]

theorem seg3_setSeg3_ne (x : ℕ → K) {c c' : ℕ} (h : c' ≠ c) (s : V3 K) : seg3 (setSeg3 x c s) c' = seg3 x c' := by
  unfold seg3
  rw [setSeg3_out _ _ _ (by omega), setSeg3_out _ _ _ (by omega), setSeg3_out _ _ _ (by omega)]

theorem setSeg3_seg3 (x : ℕ → K) (c : ℕ) {s : V3 K} (h : s = seg3 x c) : setSeg3 x c s = x := by
  funext i
  subst h
  unfold setSeg3 seg3
  by_cases h0 : i = 3 * c
  · subst h0; simp
  · rw [if_neg h0]
    by_cases h1 : i = 3 * c + 1
    · subst h1; simp
    · rw [if_neg h1]
      by_cases h2 : i = 3 * c + 2
      · subst h2; simp
      · rw [if_neg h2]

/-- a loop whose iteration `c` touches only segment `c` -/
theorem segFold_out {S : Type*} (X : S → ℕ → K) (step : S → ℕ → S)
    (hs : ∀ s c i, i < 3 * c ∨ 3 * c + 3 ≤ i → X (step s c) i = X s i) (s : S) (m : ℕ) {i : ℕ} (hi : 3 * m ≤ i) :
    X ((List.range m).foldl step s) i = X s i := by
  induction m with
  | zero => rfl
  | succ m ih =>
    rw [List.range_succ, List.foldl_append, List.foldl_cons, List.foldl_nil, hs _ _ _ (by omega), ih (by omega)]

theorem segFold_in {S : Type*} (X : S → ℕ → K) (step : S → ℕ → S)
    (hs : ∀ s c i, i < 3 * c ∨ 3 * c + 3 ≤ i → X (step s c) i = X s i) (s : S) {m k : ℕ} (hk : k ≤ m) {i : ℕ} (hi : i < 3 * k) :
    X ((List.range m).foldl step s) i = X ((List.range k).foldl step s) i := by
  induction m with
  | zero => rw [show k = 0 by omega]
  | succ m ih =>
    by_cases e : k = m + 1
    · rw [e]
    · rw [List.range_succ, List.foldl_append, List.foldl_cons, List.foldl_nil, hs _ _ _ (by omega), ih (by omega)]

/-- if the whole loop changes nothing, each iteration changes nothing -/
theorem segFold_fixed {S : Type*} (X : S → ℕ → K) (step : S → ℕ → S)
    (hs : ∀ s c i, i < 3 * c ∨ 3 * c + 3 ≤ i → X (step s c) i = X s i) (s : S) {m : ℕ}
    (hf : X ((List.range m).foldl step s) = X s) {k : ℕ} (hk : k ≤ m) : X ((List.range k).foldl step s) = X s := by
  funext i
  by_cases hi : i < 3 * k
  · rw [← segFold_in X step hs s hk hi, hf]
  · exact segFold_out X step hs s k (by omega)

/-- a loop that writes each segment from data that does not change -/
theorem segFold_const (F : ℕ → V3 K) (y : ℕ → K) (m : ℕ) {c : ℕ} (hc : c < m) :
    seg3 ((List.range m).foldl (fun y c => setSeg3 y c (F c)) y) c = F c := by
  induction m with
  | zero => omega
  | succ m ih =>
    rw [List.range_succ, List.foldl_append, List.foldl_cons, List.foldl_nil]
    by_cases e : c = m
    · subst e; rw [seg3_setSeg3]
    · rw [seg3_setSeg3_ne _ e, ih (by omega)]

theorem foldl_max_le {f : ℕ → K} {n : ℕ} {e b : K} : (List.range n).foldl (fun m i => max m (f i)) b ≤ e ↔
    b ≤ e ∧ ∀ i < n, f i ≤ e := by
  induction n with
  | zero => simp
  | succ n ih =>
    rw [List.range_succ, List.foldl_append, List.foldl_cons, List.foldl_nil, max_le_iff, ih]
    constructor
    · rintro ⟨⟨a, b⟩, c⟩
      refine ⟨a, fun i hi => ?_⟩
      rcases Nat.lt_succ_iff_lt_or_eq.1 hi with h | h
      · exact b i h
      · exact h ▸ c
    · rintro ⟨a, b⟩
      exact ⟨⟨a, fun i hi => b i (by omega)⟩, b n (by omega)⟩

theorem normInf_le {n : ℕ} {x : ℕ → K} {e : K} (he : 0 ≤ e) : normInf n x ≤ e ↔ ∀ i < n, |x i| ≤ e := by
  unfold normInf
  rw [foldl_max_le]
  exact ⟨fun h => h.2, fun h => ⟨he, h⟩⟩

theorem normInf_nn (n : ℕ) (x : ℕ → K) : 0 ≤ normInf n x := by
  unfold normInf
  induction n with
  | zero => simp
  | succ n ih =>
    rw [List.range_succ, List.foldl_append, List.foldl_cons, List.foldl_nil]
    exact le_trans ih (le_max_left _ _)

section
variable [IsStrictOrderedRing K]

theorem normInf_zero {n : ℕ} {x : ℕ → K} (h : normInf n x = 0) {i : ℕ} (hi : i < n) : x i = 0 := by
  have := (normInf_le (n := n) (x := x) (le_refl (0 : K))).1 h.le i hi
  exact abs_eq_zero.1 (le_antisymm this (abs_nonneg _))

variable [HasSqrt K]

/-- Signorini-Coulomb as a conic complementarity problem -/
theorem coulombLaw_iff {mu : K} (hmu : 0 ≤ mu) (f v : V3 K) :
    CoulombLaw mu f v ↔ f ∈ Coulomb mu ∧ v + (⟨mu⟩ : Cone K).normalCorrection v ∈ DualOf (Coulomb mu) ∧
      f.dot (v + (⟨mu⟩ : Cone K).normalCorrection v) = 0 := by
  have hs := tnorm_sq v
  have ht : tnorm (v + (⟨mu⟩ : Cone K).normalCorrection v) = tnorm v := by
    unfold tnorm; congr 1; simp [Cone.normalCorrection]
  have hd : f.dot (v + (⟨mu⟩ : Cone K).normalCorrection v) = f.x * v.x + f.y * v.y + f.z * v.z + mu * f.z * tnorm v := by
    simp only [V3.dot, Cone.normalCorrection, V3.add_x, V3.add_y, V3.add_z]; ring
  rw [mem_dual hmu, ht, hd]
  have hz : (v + (⟨mu⟩ : Cone K).normalCorrection v).z = v.z + mu * tnorm v := rfl
  rw [hz]
  constructor
  · rintro ⟨h1, h2, h3, h4⟩
    refine ⟨h1, by linarith, ?_⟩
    obtain ⟨a, b⟩ := h4 (tnorm v) (tnorm_nn v) hs
    have e0 : f.z * v.z = 0 := by rcases h3 with h3 | h3 <;> rw [h3] <;> ring
    rcases (tnorm_nn v).lt_or_eq with hp | h0
    · have : tnorm v * (f.x * v.x + f.y * v.y + mu * f.z * tnorm v) = 0 := by
        linear_combination v.x * a + v.y * b + mu * f.z * hs
      have := (mul_eq_zero.1 this).resolve_left hp.ne'
      linear_combination this + e0
    · rw [← h0, mul_zero] at hs
      have hx := mul_self_nonneg v.x
      have hy := mul_self_nonneg v.y
      have ex : v.x = 0 := mul_self_eq_zero.1 (by linarith)
      have ey : v.y = 0 := mul_self_eq_zero.1 (by linarith)
      rw [← h0, ex, ey]; linear_combination e0
  · rintro ⟨h1, h2, h3⟩
    have hm := (mem_coulomb hmu).1 h1
    have hvz : 0 ≤ v.z := by linarith
    have hcs := tnorm_cs' f v
    have h4 : tnorm f * tnorm v ≤ mu * f.z * tnorm v := mul_le_mul_of_nonneg_right hm.2 (tnorm_nn v)
    have h5 : 0 ≤ f.z * v.z := mul_nonneg hm.1 hvz
    have e1 : f.z * v.z = 0 := le_antisymm (by linarith) h5
    have e2 : f.x * v.x + f.y * v.y = -(mu * f.z * tnorm v) := by linarith
    refine ⟨h1, hvz, mul_eq_zero.1 e1, fun t ht ht2 => ?_⟩
    have et : t = tnorm v := tnorm_unique ht ht2
    subst et
    -- the square of the residual is not positive
    have hf := tnorm_sq f
    have hle : tnorm f * tnorm f ≤ (mu * f.z) * (mu * f.z) := sq_le (tnorm_nn f) hm.2
    have hsq : (tnorm v * f.x + mu * f.z * v.x) * (tnorm v * f.x + mu * f.z * v.x)
        + (tnorm v * f.y + mu * f.z * v.y) * (tnorm v * f.y + mu * f.z * v.y)
        = tnorm v * tnorm v * (tnorm f * tnorm f - (mu * f.z) * (mu * f.z)) := by
      linear_combination (-(tnorm v * tnorm v)) * hf + 2 * (tnorm v * (mu * f.z)) * e2 - (mu * f.z) * (mu * f.z) * hs
    have hn : tnorm v * tnorm v * (tnorm f * tnorm f - (mu * f.z) * (mu * f.z)) ≤ 0 :=
      mul_nonpos_of_nonneg_of_nonpos (mul_self_nonneg _) (by linarith)
    have hx := mul_self_nonneg (tnorm v * f.x + mu * f.z * v.x)
    have hy := mul_self_nonneg (tnorm v * f.y + mu * f.z * v.y)
    have ex : tnorm v * f.x + mu * f.z * v.x = 0 := mul_self_eq_zero.1 (by linarith)
    have ey : tnorm v * f.y + mu * f.z * v.y = 0 := mul_self_eq_zero.1 (by linarith)
    exact ⟨by linear_combination ex, by linear_combination ey⟩

/-! ## Gauss-Seidel -/

/-- new force of a contact -/
def pgsForce (n : ℕ) (G : ℕ → ℕ → K) (g : ℕ → K) (w mu : K) (c : ℕ) (x : ℕ → K) : V3 K :=
  let r := 3 * c
  let v : V3 K := ⟨matVec n G x r + g r, matVec n G x (r + 1) + g (r + 1), matVec n G x (r + 2) + g (r + 2)⟩
  let f := seg3 x c
  let fz := max 0 (f.z - (w / G (r + 2) (r + 2)) * v.z)
  let minD := min (G r r) (G (r + 1) (r + 1))
  let tx := f.x - w / minD * (v.x + G r (r + 2) * (fz - f.z))
  let ty := f.y - w / minD * (v.y + G (r + 1) (r + 2) * (fz - f.z))
  let tn := HasSqrt.sqrt (tx * tx + ty * ty)
  if tn > mu * fz then ⟨tx * (mu * fz / tn), ty * (mu * fz / tn), fz⟩ else ⟨tx, ty, fz⟩

theorem pgsContact_x (n : ℕ) (G : ℕ → ℕ → K) (g : ℕ → K) (w : K) (cone : Cone K) (c : ℕ) (s : PgsSt K) :
    (pgsContact n G g w cone c s).x = setSeg3 s.x c (pgsForce n G g w cone.mu c s.x) := rfl

theorem pgsContact_out (n : ℕ) (G : ℕ → ℕ → K) (g : ℕ → K) (w : K) (cones : List (Cone K)) (s : PgsSt K) (c i : ℕ)
    (hi : i < 3 * c ∨ 3 * c + 3 ≤ i) : (pgsContact n G g w (cones.getD c ⟨0⟩) c s).x i = s.x i := by
  rw [pgsContact_x]; exact setSeg3_out _ _ _ hi

theorem pgsForce_mem (n : ℕ) (G : ℕ → ℕ → K) (g : ℕ → K) (w : K) {mu : K} (hmu : 0 ≤ mu) (c : ℕ) (x : ℕ → K) :
    pgsForce n G g w mu c x ∈ Coulomb mu := by
  unfold pgsForce
  simp only
  set fz := max 0 ((seg3 x c).z - (w / G (3 * c + 2) (3 * c + 2)) * (matVec n G x (3 * c + 2) + g (3 * c + 2))) with hfz
  have hz : 0 ≤ fz := le_max_left _ _
  generalize (seg3 x c).x - w / min (G (3 * c) (3 * c)) (G (3 * c + 1) (3 * c + 1)) * (matVec n G x (3 * c) + g (3 * c) +
    G (3 * c) (3 * c + 2) * (fz - (seg3 x c).z)) = tx
  generalize (seg3 x c).y - w / min (G (3 * c) (3 * c)) (G (3 * c + 1) (3 * c + 1)) * (matVec n G x (3 * c + 1) + g (3 * c + 1) +
    G (3 * c + 1) (3 * c + 2) * (fz - (seg3 x c).z)) = ty
  have hsq := sqrt_sq (show 0 ≤ tx * tx + ty * ty by nlinarith [mul_self_nonneg tx, mul_self_nonneg ty])
  have hmz : 0 ≤ mu * fz := mul_nonneg hmu hz
  split
  · rename_i hgt
    have hp : 0 < HasSqrt.sqrt (tx * tx + ty * ty) := lt_of_le_of_lt hmz hgt
    set t := HasSqrt.sqrt (tx * tx + ty * ty)
    refine ⟨hz, le_of_eq ?_⟩
    simp only
    have := hp.ne'
    field_simp
    linear_combination -mu ^ 2 * fz ^ 2 * hsq
  · rename_i hle
    push Not at hle
    refine ⟨hz, ?_⟩
    simp only
    rw [← hsq]
    exact sq_le (sqrt_nn _) hle

/-- a force is left alone exactly when it obeys Coulomb's law with the velocity of its contact -/
theorem pgsForce_fixed (n : ℕ) (G : ℕ → ℕ → K) (g : ℕ → K) {w : K} (hw : 0 < w) {mu : K} (hmu : 0 ≤ mu) (c : ℕ) (x : ℕ → K)
    (h0 : 0 < G (3 * c) (3 * c)) (h1 : 0 < G (3 * c + 1) (3 * c + 1)) (h2 : 0 < G (3 * c + 2) (3 * c + 2)) :
    pgsForce n G g w mu c x = seg3 x c ↔ CoulombLaw mu (seg3 x c) (seg3 (fun i => matVec n G x i + g i) c) := by
  have hD : 0 < w / min (G (3 * c) (3 * c)) (G (3 * c + 1) (3 * c + 1)) := div_pos hw (lt_min h0 h1)
  have hZ : 0 < w / G (3 * c + 2) (3 * c + 2) := div_pos hw h2
  set v := seg3 (fun i => matVec n G x i + g i) c with hv
  set f := seg3 x c with hf
  set α := w / min (G (3 * c) (3 * c)) (G (3 * c + 1) (3 * c + 1)) with hα
  set β := w / G (3 * c + 2) (3 * c + 2) with hβ
  have e : pgsForce n G g w mu c x =
      let fz := max 0 (f.z - β * v.z)
      let tx := f.x - α * (v.x + G (3 * c) (3 * c + 2) * (fz - f.z))
      let ty := f.y - α * (v.y + G (3 * c + 1) (3 * c + 2) * (fz - f.z))
      let tn := HasSqrt.sqrt (tx * tx + ty * ty)
      if tn > mu * fz then ⟨tx * (mu * fz / tn), ty * (mu * fz / tn), fz⟩ else ⟨tx, ty, fz⟩ := rfl
  rw [e]
  constructor
  · intro h
    simp only at h
    have hmem : f ∈ Coulomb mu := by
      have := pgsForce_mem n G g w hmu c x
      rw [e] at this; simp only at this; rw [h] at this; exact this
    have hz : max 0 (f.z - β * v.z) = f.z := by
      have := congrArg V3.z h
      split at this <;> exact this
    rw [hz] at h
    simp only [sub_self, mul_zero, add_zero] at h
    have hfz := hmem.1
    have hvz : 0 ≤ v.z := by
      by_contra hc
      push Not at hc
      have : 0 < -(β * v.z) := by
        have := mul_pos hZ (neg_pos.2 hc); linarith
      rw [max_eq_right (by linarith)] at hz
      linarith
    have hsep : f.z = 0 ∨ v.z = 0 := by
      rcases hvz.lt_or_eq with hp | h0
      · left
        by_contra hc
        have hfp : 0 < f.z := lt_of_le_of_ne hfz (Ne.symm hc)
        have := mul_pos hZ hp
        rcases le_total 0 (f.z - β * v.z) with hh | hh
        · rw [max_eq_right hh] at hz; linarith
        · rw [max_eq_left hh] at hz; linarith
      · right; exact h0.symm
    refine ⟨hmem, hvz, hsep, fun t ht ht2 => ?_⟩
    have hmz : 0 ≤ mu * f.z := mul_nonneg hmu hfz
    set tx := f.x - α * v.x
    set ty := f.y - α * v.y
    have hsq := sqrt_sq (show 0 ≤ tx * tx + ty * ty by nlinarith [mul_self_nonneg tx, mul_self_nonneg ty])
    set tn := HasSqrt.sqrt (tx * tx + ty * ty)
    split at h
    · rename_i hgt
      have hp : 0 < tn := lt_of_le_of_lt hmz hgt
      have hpn := hp.ne'
      have ex : tx * (mu * f.z / tn) = f.x := congrArg V3.x h
      have ey : ty * (mu * f.z / tn) = f.y := congrArg V3.y h
      have ex' : f.x * tn = mu * f.z * tx := by rw [← ex]; field_simp
      have ey' : f.y * tn = mu * f.z * ty := by rw [← ey]; field_simp
      -- `f (tn - mu fz) = - mu fz α v`
      have kx : f.x * (tn - mu * f.z) = -(mu * f.z) * α * v.x := by
        linear_combination ex'
      have ky : f.y * (tn - mu * f.z) = -(mu * f.z) * α * v.y := by
        linear_combination ey'
      have hdp : 0 < tn - mu * f.z := by linarith
      rcases hmz.lt_or_eq with hmp | hm0
      · -- norms: tn - mu fz = α t
        have hff : f.x * f.x + f.y * f.y = (mu * f.z) * (mu * f.z) := by
          have : (f.x * f.x + f.y * f.y) * (tn * tn) = (mu * f.z) * (mu * f.z) * (tn * tn) := by
            linear_combination (f.x * tn + mu * f.z * tx) * ex' + (f.y * tn + mu * f.z * ty) * ey'
              - (mu * f.z) * (mu * f.z) * hsq
          exact mul_right_cancel₀ (mul_pos hp hp).ne' this
        have hat : tn - mu * f.z = α * t := by
          apply eq_of_sq hdp.le (mul_nonneg hD.le ht)
          have : ((mu * f.z) * (mu * f.z)) * ((tn - mu * f.z) * (tn - mu * f.z))
              = ((mu * f.z) * (mu * f.z)) * (α * t * (α * t)) := by
            linear_combination (-(tn - mu * f.z) * (tn - mu * f.z)) * hff
              + (f.x * (tn - mu * f.z) - (mu * f.z) * α * v.x) * kx + (f.y * (tn - mu * f.z) - (mu * f.z) * α * v.y) * ky
              - ((mu * f.z) * (mu * f.z)) * α * α * ht2
          exact mul_left_cancel₀ (mul_pos hmp hmp).ne' this
        rw [hat] at kx ky
        exact ⟨mul_left_cancel₀ hD.ne' (by linear_combination kx), mul_left_cancel₀ hD.ne' (by linear_combination ky)⟩
      · rw [← hm0] at ex' ey'
        have fx0 : f.x = 0 := by
          have : f.x * tn = 0 := by linear_combination ex'
          exact (mul_eq_zero.1 this).resolve_right hpn
        have fy0 : f.y = 0 := by
          have : f.y * tn = 0 := by linear_combination ey'
          exact (mul_eq_zero.1 this).resolve_right hpn
        rw [← hm0, fx0, fy0]; simp
    · have ex : tx = f.x := congrArg V3.x h
      have ey : ty = f.y := congrArg V3.y h
      have vx : v.x = 0 := by
        have : α * v.x = 0 := by simp only [tx] at ex; linear_combination -ex
        exact (mul_eq_zero.1 this).resolve_left hD.ne'
      have vy : v.y = 0 := by
        have : α * v.y = 0 := by simp only [ty] at ey; linear_combination -ey
        exact (mul_eq_zero.1 this).resolve_left hD.ne'
      rw [vx, vy] at ht2 ⊢
      have t0 : t = 0 := mul_self_eq_zero.1 (by rw [ht2]; ring)
      rw [t0]; simp
  · rintro ⟨hmem, hvz, hsep, hfr⟩
    have hfz := hmem.1
    have hz : max 0 (f.z - β * v.z) = f.z := by
      rcases hsep with h | h
      · rw [h, max_eq_left]
        have := mul_nonneg hZ.le hvz
        linarith
      · rw [h, mul_zero, sub_zero, max_eq_right hfz]
    simp only [hz, sub_self, mul_zero, add_zero]
    have hmz : 0 ≤ mu * f.z := mul_nonneg hmu hfz
    obtain ⟨a, b⟩ := hfr (tnorm v) (tnorm_nn v) (tnorm_sq v)
    have hs := tnorm_sq v
    rcases (tnorm_nn v).lt_or_eq with hp | h0'
    · have hpn := hp.ne'
      have htn : HasSqrt.sqrt ((f.x - α * v.x) * (f.x - α * v.x) + (f.y - α * v.y) * (f.y - α * v.y))
          = mu * f.z + α * tnorm v := by
        apply eq_of_sq (sqrt_nn _) (add_nonneg hmz (mul_nonneg hD.le hp.le))
        rw [sqrt_sq (by nlinarith [mul_self_nonneg (f.x - α * v.x), mul_self_nonneg (f.y - α * v.y)])]
        have : (tnorm v * tnorm v) * ((f.x - α * v.x) * (f.x - α * v.x) + (f.y - α * v.y) * (f.y - α * v.y))
            = (tnorm v * tnorm v) * ((mu * f.z + α * tnorm v) * (mu * f.z + α * tnorm v)) := by
          linear_combination (tnorm v * f.x - 2 * α * tnorm v * v.x - mu * f.z * v.x) * a
            + (tnorm v * f.y - 2 * α * tnorm v * v.y - mu * f.z * v.y) * b
            - (α * tnorm v + mu * f.z) * (α * tnorm v + mu * f.z) * hs
        exact mul_left_cancel₀ (mul_pos hp hp).ne' this
      rw [htn]
      have hαp := mul_pos hD hp
      rw [if_pos (by linarith)]
      have hden : mu * f.z + α * tnorm v ≠ 0 := by linarith
      ext
      · simp only
        rw [mul_div_assoc', div_eq_iff hden]
        apply mul_left_cancel₀ hpn
        linear_combination (-α * tnorm v) * a
      · simp only
        rw [mul_div_assoc', div_eq_iff hden]
        apply mul_left_cancel₀ hpn
        linear_combination (-α * tnorm v) * b
      · rfl
    · rw [← h0', mul_zero] at hs
      have hx := mul_self_nonneg v.x
      have hy := mul_self_nonneg v.y
      have ex : v.x = 0 := mul_self_eq_zero.1 (by linarith)
      have ey : v.y = 0 := mul_self_eq_zero.1 (by linarith)
      rw [ex, ey]
      simp only [mul_zero, sub_zero]
      have := ((mem_coulomb hmu).1 hmem).2
      rw [if_neg (by unfold tnorm at this; linarith)]
end

end Pin
