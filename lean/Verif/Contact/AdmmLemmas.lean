import Verif.Contact.SolverLemmas

/-! # Lemmas on the weighted projection, ADMM and the contact impulses -/

namespace Pin
universe u
variable {K : Type u} [Field K] [LinearOrder K] [IsStrictOrderedRing K] [HasSqrt K]

/-- product with weights -/
def wdot (R a b : V3 K) : K := R.x * (a.x * b.x) + R.y * (a.y * b.y) + R.z * (a.z * b.z)

omit [LinearOrder K] [IsStrictOrderedRing K] [HasSqrt K] in
theorem wdot_wsq (R a : V3 K) : wdot R a a = wsq R a := rfl

omit [HasSqrt K] in
theorem wsq_pos {R : V3 K} (hx : 0 < R.x) (hy : 0 < R.y) (hz : 0 < R.z) {a b : V3 K} (h : a ≠ b) : 0 < wsq R (a - b) := by
  by_contra hc
  push Not at hc
  have h1 := mul_nonneg hx.le (mul_self_nonneg (a.x - b.x))
  have h2 := mul_nonneg hy.le (mul_self_nonneg (a.y - b.y))
  have h3 := mul_nonneg hz.le (mul_self_nonneg (a.z - b.z))
  simp only [wsq, V3.sub_x, V3.sub_y, V3.sub_z] at hc
  have e1 : R.x * ((a.x - b.x) * (a.x - b.x)) = 0 := by linarith
  have e2 : R.y * ((a.y - b.y) * (a.y - b.y)) = 0 := by linarith
  have e3 : R.z * ((a.z - b.z) * (a.z - b.z)) = 0 := by linarith
  apply h
  ext
  · have := mul_self_eq_zero.1 ((mul_eq_zero.1 e1).resolve_left hx.ne'); linarith
  · have := mul_self_eq_zero.1 ((mul_eq_zero.1 e2).resolve_left hy.ne'); linarith
  · have := mul_self_eq_zero.1 ((mul_eq_zero.1 e3).resolve_left hz.ne'); linarith

theorem weighted_var {c : Cone K} (hmu : 0 ≤ c.mu) {R : V3 K} (hxy : R.x = R.y) (hx : 0 < R.x) (hz : 0 < R.z) (x : V3 K) :
    c.weightedProject x R ∈ Coulomb c.mu ∧ wdot R (x - c.weightedProject x R) (c.weightedProject x R) = 0 ∧
      ∀ y ∈ Coulomb c.mu, wdot R (x - c.weightedProject x R) y ≤ 0 := by
  have sx := sqrt_sq hx.le
  have sz := sqrt_sq hz.le
  have px := sqrt_pos hx
  have pz := sqrt_pos hz
  have hq : HasSqrt.sqrt (R.x / R.z) = HasSqrt.sqrt R.x / HasSqrt.sqrt R.z := by
    apply eq_of_sq (sqrt_nn _) (div_nonneg px.le pz.le)
    rw [sqrt_sq (div_nonneg hx.le hz.le), div_mul_div_comm, sx, sz]
  unfold Cone.weightedProject
  simp only
  rw [← hxy, hq]
  set a := HasSqrt.sqrt R.x
  set b := HasSqrt.sqrt R.z
  have ha := px.ne'
  have hb := pz.ne'
  have hm' : 0 ≤ c.mu * (a / b) := mul_nonneg hmu (div_nonneg px.le pz.le)
  obtain ⟨h1, h2, h3⟩ := project_var (c := ⟨c.mu * (a / b)⟩) hm' (⟨a * x.x, a * x.y, b * x.z⟩ : V3 K)
  set p := (⟨c.mu * (a / b)⟩ : Cone K).project (⟨a * x.x, a * x.y, b * x.z⟩ : V3 K)
  refine ⟨⟨div_nonneg h1.1 pz.le, ?_⟩, ?_, fun y hy => ?_⟩
  · have h := h1.2
    have e1 : p.x / a * (p.x / a) + p.y / a * (p.y / a) = (p.x * p.x + p.y * p.y) / (a * a) := by field_simp
    have e2 : c.mu * (p.z / b) * (c.mu * (p.z / b)) = (c.mu * (a / b) * p.z) * (c.mu * (a / b) * p.z) / (a * a) := by field_simp
    simp only at h ⊢
    rw [e1, e2]
    exact div_le_div_of_nonneg_right h (mul_self_nonneg a)
  · simp only [V3.dot, V3.sub_x, V3.sub_y, V3.sub_z] at h2
    simp only [wdot, V3.sub_x, V3.sub_y, V3.sub_z]
    rw [← hxy, ← sx, ← sz, ← h2]
    field_simp
  · have := h3 ⟨a * y.x, a * y.y, b * y.z⟩ ⟨mul_nonneg pz.le hy.1, by
      have h := mul_le_mul_of_nonneg_left hy.2 (mul_self_nonneg a)
      have e : c.mu * (a / b) * (b * y.z) * (c.mu * (a / b) * (b * y.z)) = a * a * (c.mu * y.z * (c.mu * y.z)) := by field_simp
      simp only
      rw [e]; linarith⟩
    refine le_of_eq_of_le ?_ this
    simp only [V3.dot, wdot, V3.sub_x, V3.sub_y, V3.sub_z]
    rw [← hxy, ← sx, ← sz]
    field_simp

omit [HasSqrt K] in
theorem wclosest_of_var {C : Set (V3 K)} {R x p : V3 K} (hx : 0 < R.x) (hy : 0 < R.y) (hz : 0 < R.z) (hp : p ∈ C)
    (h0 : wdot R (x - p) p = 0) (h : ∀ y ∈ C, wdot R (x - p) y ≤ 0) : IsClosestW R C x p := by
  refine ⟨hp, fun y hyC hne => ?_⟩
  have h1 := h y hyC
  have h2 := wsq_pos hx hy hz (Ne.symm hne)
  simp only [wdot, wsq, V3.sub_x, V3.sub_y, V3.sub_z] at *
  nlinarith

omit [HasSqrt K] in
theorem wvar_unique {C : Set (V3 K)} {R x p r : V3 K} (hx : 0 < R.x) (hy : 0 < R.y) (hz : 0 < R.z)
    (hp : p ∈ C) (hp0 : wdot R (x - p) p = 0) (hpy : ∀ y ∈ C, wdot R (x - p) y ≤ 0)
    (hr : r ∈ C) (hr0 : wdot R (x - r) r = 0) (hry : ∀ y ∈ C, wdot R (x - r) y ≤ 0) : p = r := by
  by_contra hne
  have h1 := hpy r hr
  have h2 := hry p hp
  have h3 := wsq_pos hx hy hz hne
  simp only [wdot, wsq, V3.sub_x, V3.sub_y, V3.sub_z] at *
  nlinarith

/-! ## contact impulses -/

/-- new impulse of a contact -/
def impulseNew (cref R : ℕ → K) (mu : K) (prev : ℕ → K) (cone : Cone K) (c : ℕ) (lam : ℕ → K) : V3 K :=
  let f := seg3 lam c
  let r := seg3 R c
  let cr := seg3 cref c
  let rp : V3 K := ⟨r.x + mu, r.y + mu, r.z + mu⟩
  let t := cr + cone.normalCorrection (cr + ⟨r.x * f.x, r.y * f.y, r.z * f.z⟩) - mu • seg3 prev c
  cone.weightedProject ⟨-(t.x / rp.x), -(t.y / rp.y), -(t.z / rp.z)⟩ rp

omit [IsStrictOrderedRing K] in
theorem impulseContact_eq (cref R : ℕ → K) (mu : K) (prev : ℕ → K) (cone : Cone K) (c : ℕ) (lam : ℕ → K) :
    impulseContact cref R mu prev cone c lam = setSeg3 lam c (impulseNew cref R mu prev cone c lam) := by
  unfold impulseContact impulseNew
  simp only [seg3_setSeg3]
  funext i
  unfold setSeg3
  split
  · rfl
  · split
    · rfl
    · split
      · rfl
      · rfl

omit [IsStrictOrderedRing K] in
theorem impulseContact_out (cref R : ℕ → K) (mu : K) (prev : ℕ → K) (cones : List (Cone K)) (lam : ℕ → K) (c i : ℕ)
    (hi : i < 3 * c ∨ 3 * c + 3 ≤ i) : impulseContact cref R mu prev (cones.getD c ⟨0⟩) c lam i = lam i := by
  rw [impulseContact_eq]; exact setSeg3_out _ _ _ hi

theorem impulseNew_fixed {cref R : ℕ → K} {mu : K} {cone : Cone K} (hmu : 0 ≤ cone.mu) {c : ℕ} (lam : ℕ → K)
    (hxy : R (3 * c) = R (3 * c + 1)) (hx : 0 < R (3 * c) + mu) (hz : 0 < R (3 * c + 2) + mu) :
    impulseNew cref R mu lam cone c lam = seg3 lam c ↔
      CoulombLaw cone.mu (seg3 lam c) (seg3 (fun i => cref i + R i * lam i) c) := by
  rw [coulombLaw_iff hmu]
  set f := seg3 lam c with hf
  set v := seg3 (fun i => cref i + R i * lam i) c with hv
  have hvv : seg3 cref c + ⟨(seg3 R c).x * f.x, (seg3 R c).y * f.y, (seg3 R c).z * f.z⟩ = v := by
    ext <;> rfl
  have hcm : (⟨cone.mu⟩ : Cone K) = cone := rfl
  rw [hcm]
  set d := cone.normalCorrection v with hd
  have hy : 0 < R (3 * c + 1) + mu := hxy ▸ hx
  set rp : V3 K := ⟨R (3 * c) + mu, R (3 * c + 1) + mu, R (3 * c + 2) + mu⟩ with hrp
  set t : V3 K := seg3 cref c + d - mu • f with ht
  set u : V3 K := ⟨-(t.x / rp.x), -(t.y / rp.y), -(t.z / rp.z)⟩ with hu
  have e : impulseNew cref R mu lam cone c lam = cone.weightedProject u rp := by
    unfold impulseNew
    simp only [← hf]
    rw [hvv]
    rfl
  rw [e]
  obtain ⟨h1, h2, h3⟩ := weighted_var hmu (R := rp) (by simp only [hrp, hxy]) hx hz u
  have hw : ∀ y : V3 K, wdot rp (u - f) y = -(y.dot (v + d)) := by
    intro y
    have k0 : rp.x ≠ 0 := hx.ne'
    have k1 : rp.y ≠ 0 := hy.ne'
    have k2 : rp.z ≠ 0 := hz.ne'
    have q0 : rp.x * u.x = -t.x := by simp only [hu]; field_simp
    have q1 : rp.y * u.y = -t.y := by simp only [hu]; field_simp
    have q2 : rp.z * u.z = -t.z := by simp only [hu]; field_simp
    have r0 : -t.x - rp.x * f.x = -(v + d).x := by
      simp only [ht, hrp, ← hvv, V3.add_x, V3.sub_x, V3.smul_x]; simp only [seg3]; ring
    have r1 : -t.y - rp.y * f.y = -(v + d).y := by
      simp only [ht, hrp, ← hvv, V3.add_y, V3.sub_y, V3.smul_y]; simp only [seg3]; ring
    have r2 : -t.z - rp.z * f.z = -(v + d).z := by
      simp only [ht, hrp, ← hvv, V3.add_z, V3.sub_z, V3.smul_z]; simp only [seg3]; ring
    simp only [wdot, V3.dot, V3.sub_x, V3.sub_y, V3.sub_z]
    linear_combination y.x * (q0 + r0) + y.y * (q1 + r1) + y.z * (q2 + r2)
  constructor
  · intro h
    rw [h] at h1 h2 h3
    refine ⟨h1, fun y hy => ?_, ?_⟩
    · have := h3 y hy; rw [hw] at this; linarith
    · rw [hw] at h2; linarith
  · rintro ⟨g1, g2, g3⟩
    refine wvar_unique hx hy hz h1 h2 h3 g1 (by rw [hw, g3, neg_zero]) (fun y hy => ?_)
    rw [hw]; have := g2 y hy; linarith

theorem impulseNew_mem {cref R : ℕ → K} {mu : K} {cone : Cone K} (hmu : 0 ≤ cone.mu) {c : ℕ} (prev lam : ℕ → K)
    (hxy : R (3 * c) = R (3 * c + 1)) (hx : 0 < R (3 * c) + mu) (hz : 0 < R (3 * c + 2) + mu) :
    impulseNew cref R mu prev cone c lam ∈ Coulomb cone.mu := by
  unfold impulseNew
  exact (weighted_var hmu (by simp only [seg3, hxy]) hx hz _).1

theorem impulseSweep_seg (cref R : ℕ → K) (mu : K) (cones : List (Cone K)) (lam : ℕ → K) {c : ℕ} (hc : c < cones.length) :
    ∃ l, seg3 (impulseSweep cref R mu cones lam) c = impulseNew cref R mu lam (cones.getD c ⟨0⟩) c l := by
  have hs := impulseContact_out cref R mu lam cones
  refine ⟨(List.range c).foldl (fun l c => impulseContact cref R mu lam (cones.getD c ⟨0⟩) c l) lam, ?_⟩
  have : seg3 (impulseSweep cref R mu cones lam) c =
      seg3 ((List.range (c + 1)).foldl (fun l c => impulseContact cref R mu lam (cones.getD c ⟨0⟩) c l) lam) c := by
    unfold seg3 impulseSweep
    congr 1 <;> exact segFold_in (fun l : ℕ → K => l) _ (fun s c i hi => hs s c i hi) lam (by omega) (by omega)
  rw [this, List.range_succ, List.foldl_append, List.foldl_cons, List.foldl_nil, impulseContact_eq, seg3_setSeg3]

theorem impulseSweep_fixed {cref R : ℕ → K} {mu : K} {cones : List (Cone K)} (lam : ℕ → K)
    (hmu : ∀ c ∈ cones, 0 ≤ c.mu)
    (hR : ∀ c < cones.length, R (3 * c) = R (3 * c + 1) ∧ 0 < R (3 * c) + mu ∧ 0 < R (3 * c + 2) + mu) :
    impulseSweep cref R mu cones lam = lam ↔
      ∀ c < cones.length, CoulombLaw (cones.getD c ⟨0⟩).mu (seg3 lam c) (seg3 (fun i => cref i + R i * lam i) c) := by
  have hs := impulseContact_out cref R mu lam cones
  have hm : ∀ c < cones.length, 0 ≤ (cones.getD c ⟨0⟩).mu := by
    intro c hc
    rw [show cones.getD c ⟨0⟩ = cones[c] by simp [hc]]; exact hmu _ (List.getElem_mem hc)
  constructor
  · intro h c hc
    have k0 := segFold_fixed (fun l : ℕ → K => l) _ (fun s c i hi => hs s c i hi) lam (m := cones.length) h (k := c) (by omega)
    have k1 := segFold_fixed (fun l : ℕ → K => l) _ (fun s c i hi => hs s c i hi) lam (m := cones.length) h (k := c + 1) (by omega)
    rw [List.range_succ, List.foldl_append, List.foldl_cons, List.foldl_nil, k0, impulseContact_eq] at k1
    obtain ⟨a, b, d⟩ := hR c hc
    refine (impulseNew_fixed (hm c hc) lam a b d).1 ?_
    have := congrArg (fun l => seg3 l c) k1
    simpa only [seg3_setSeg3] using this
  · intro h
    unfold impulseSweep
    have : ∀ k ≤ cones.length, (List.range k).foldl (fun l c => impulseContact cref R mu lam (cones.getD c ⟨0⟩) c l) lam = lam := by
      intro k
      induction k with
      | zero => intro _; rfl
      | succ k ih =>
        intro hk
        rw [List.range_succ, List.foldl_append, List.foldl_cons, List.foldl_nil, ih (by omega), impulseContact_eq]
        obtain ⟨a, b, d⟩ := hR k (by omega)
        exact setSeg3_seg3 _ _ ((impulseNew_fixed (hm k (by omega)) lam a b d).2 (h k (by omega)))
    exact this _ le_rfl

/-! ## ADMM -/

/-- projection on the cone, its residual: Moreau's decomposition -/
theorem project_scaled {c : Cone K} (hmu : 0 ≤ c.mu) {k : K} (hk : 0 < k) (x z : V3 K) {y z' : V3 K}
    (hy : y = c.project (x - (1 / k) • z)) (hz : z' = z - k • (x - y)) :
    y ∈ Coulomb c.mu ∧ z' ∈ DualOf (Coulomb c.mu) ∧ y.dot z' = 0 := by
  obtain ⟨h1, h2, h3⟩ := project_var hmu (x - (1 / k) • z)
  rw [← hy] at h1 h2 h3
  have hkn := hk.ne'
  have e : ∀ w : V3 K, w.dot z' = -(k * (x - (1 / k) • z - y).dot w) := by
    intro w
    rw [hz]
    simp only [V3.dot, V3.sub_x, V3.sub_y, V3.sub_z, V3.smul_x, V3.smul_y, V3.smul_z]
    field_simp
    ring
  refine ⟨h1, fun f hf => ?_, ?_⟩
  · rw [e]
    have := mul_nonneg hk.le (neg_nonneg.2 (h3 f hf)); linarith
  · rw [e, h2, mul_zero, neg_zero]

/-- fixed point of the projection step -/
theorem project_stationary {c : Cone K} (hmu : 0 ≤ c.mu) {k : K} (hk : 0 < k) {x z : V3 K}
    (hx : x ∈ Coulomb c.mu) (hz : z ∈ DualOf (Coulomb c.mu)) (h : x.dot z = 0) : c.project (x - (1 / k) • z) = x := by
  obtain ⟨h1, h2, h3⟩ := project_var hmu (x - (1 / k) • z)
  have hkn : 0 < 1 / k := one_div_pos.2 hk
  symm
  refine var_unique (closest_of_var h1 h2 h3) hx ?_ (fun y hy => ?_)
  · simp only [V3.dot, V3.sub_x, V3.sub_y, V3.sub_z, V3.smul_x, V3.smul_y, V3.smul_z] at *
    linear_combination (-(1 / k)) * h
  · have := mul_nonneg hkn.le (hz y hy)
    simp only [V3.dot, V3.sub_x, V3.sub_y, V3.sub_z, V3.smul_x, V3.smul_y, V3.smul_z] at *
    linarith

omit [LinearOrder K] [IsStrictOrderedRing K] [HasSqrt K] in
theorem matVec_eq (n : ℕ) (G : ℕ → ℕ → K) (x : ℕ → K) (i : ℕ) : matVec n G x i = ∑ j ∈ Finset.range n, G i j * x j := by
  unfold matVec
  induction n with
  | zero => rfl
  | succ n ih => rw [List.range_succ, List.foldl_append, List.foldl_cons, List.foldl_nil, ih, Finset.sum_range_succ]

end Pin
