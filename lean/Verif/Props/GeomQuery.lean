import Verif.Geom.Query
import Verif.Props.Parallel
import Verif.Algo.Examples
import Mathlib.Tactic.Linarith

/-!
# C70: distance queries and radii of the bodies
-/

namespace Pin
variable {K : Type*}

/-! ## Proofs: distances -/

theorem cdLoop_spec [LinearOrder K] (enabled : ℕ → Bool) (dist : ℕ → K) (l : List ℕ) : ∀ (c : DState K), l.Nodup →
    (∀ k, (cdLoop enabled dist l c).results k = if k ∈ l ∧ enabled k = true then dist k else c.results k) ∧
    ((cdLoop enabled dist l c).min_dist ≤ c.min_dist ∧
      ∀ k ∈ l, enabled k = true → (cdLoop enabled dist l c).min_dist ≤ (dist k : WithTop K)) ∧
    (((cdLoop enabled dist l c).min_index = c.min_index ∧ (cdLoop enabled dist l c).min_dist = c.min_dist) ∨
      ∃ a b, l = a ++ (cdLoop enabled dist l c).min_index :: b ∧
        enabled (cdLoop enabled dist l c).min_index = true ∧
        (cdLoop enabled dist l c).min_dist = (dist (cdLoop enabled dist l c).min_index : WithTop K) ∧
        (cdLoop enabled dist l c).min_dist < c.min_dist ∧
        ∀ k ∈ a, enabled k = true → (cdLoop enabled dist l c).min_dist < (dist k : WithTop K)) := by
  induction l with
  | nil =>
    intro c _
    refine ⟨fun k => by simp [cdLoop], ⟨le_rfl, fun k hk => by simp at hk⟩, Or.inl ⟨rfl, rfl⟩⟩
  | cons x l ih =>
    intro c hnd
    obtain ⟨hx, hl⟩ := List.nodup_cons.mp hnd
    unfold cdLoop
    by_cases he : enabled x = true
    · rw [if_pos he]
      dsimp only
      simp only [upd_self]
      have hres : ∀ (f : ℕ → K), (∀ k, f k = if k ∈ l ∧ enabled k = true then dist k else upd c.results x (dist x) k) →
          ∀ k, f k = if k ∈ x :: l ∧ enabled k = true then dist k else c.results k := by
        intro f hf k
        rw [hf]
        by_cases hk : k = x
        · subst hk; simp [hx, he]
        · simp [hk]
      by_cases hlt : (dist x : WithTop K) < c.min_dist
      · rw [if_pos hlt]
        obtain ⟨h1, ⟨h2, h3⟩, h4⟩ := ih ⟨x, (dist x : WithTop K), upd c.results x (dist x)⟩ hl
        dsimp only at h1 h2 h4
        refine ⟨hres _ h1, ⟨h2.trans hlt.le, fun k hk hke => ?_⟩, Or.inr ?_⟩
        · rcases List.mem_cons.mp hk with rfl | hk
          · exact h2
          · exact h3 k hk hke
        · rcases h4 with ⟨a, b⟩ | ⟨a, b, e1, e2, e3, e4, e5⟩
          · refine ⟨[], l, by rw [a]; rfl, by rw [a]; exact he, by rw [a, b], by rw [b]; exact hlt, by simp⟩
          · refine ⟨x :: a, b, by rw [List.cons_append, ← e1], e2, e3, e4.trans hlt, fun k hk hke => ?_⟩
            rcases List.mem_cons.mp hk with rfl | hk
            · exact e4
            · exact e5 k hk hke
      · rw [if_neg hlt]
        obtain ⟨h1, ⟨h2, h3⟩, h4⟩ := ih { c with results := upd c.results x (dist x) } hl
        dsimp only at h1 h2 h4
        refine ⟨hres _ h1, ⟨h2, fun k hk hke => ?_⟩, ?_⟩
        · rcases List.mem_cons.mp hk with rfl | hk
          · exact h2.trans (not_lt.mp hlt)
          · exact h3 k hk hke
        · rcases h4 with h4 | ⟨a, b, e1, e2, e3, e4, e5⟩
          · exact Or.inl h4
          · refine Or.inr ⟨x :: a, b, by rw [List.cons_append, ← e1], e2, e3, e4, fun k hk hke => ?_⟩
            rcases List.mem_cons.mp hk with rfl | hk
            · exact lt_of_lt_of_le e4 (not_lt.mp hlt)
            · exact e5 k hk hke
    · rw [if_neg he]
      obtain ⟨h1, ⟨h2, h3⟩, h4⟩ := ih c hl
      refine ⟨fun k => ?_, ⟨h2, fun k hk hke => ?_⟩, ?_⟩
      · rw [h1]
        by_cases hk : k = x
        · subst hk; simp [he]
        · simp [hk]
      · rcases List.mem_cons.mp hk with rfl | hk
        · exact absurd hke he
        · exact h3 k hk hke
      · rcases h4 with h4 | ⟨a, b, e1, e2, e3, e4, e5⟩
        · exact Or.inl h4
        · refine Or.inr ⟨x :: a, b, by rw [List.cons_append, ← e1], e2, e3, e4, fun k hk hke => ?_⟩
          rcases List.mem_cons.mp hk with rfl | hk
          · exact absurd hke he
          · exact e5 k hk hke

/-! ## Proofs: radii -/

/-- a convex polynomial of degree two is largest at the ends of an interval -/
theorem quad_le_max {A B C l h x : ℝ} (hC : 0 ≤ C) (h1 : l ≤ x) (h2 : x ≤ h) :
    A + B * x + C * (x * x) ≤ max (A + B * l + C * (l * l)) (A + B * h + C * (h * h)) := by
  by_contra hc
  obtain ⟨c1, c2⟩ := max_lt_iff.mp (not_le.mp hc)
  rcases eq_or_lt_of_le h1 with rfl | h1
  · exact lt_irrefl _ c1
  rcases eq_or_lt_of_le h2 with rfl | h2
  · exact lt_irrefl _ c2
  have d1 : 0 < (x - l) * (B + C * (x + l)) := by nlinarith
  have d2 : 0 < (x - h) * (B + C * (x + h)) := by nlinarith
  have p1 : 0 < B + C * (x + l) := (pos_iff_pos_of_mul_pos d1).mp (by linarith)
  have p2 : B + C * (x + h) < 0 := by
    by_contra hc
    have := mul_nonpos_of_nonpos_of_nonneg (by linarith : x - h ≤ 0) (not_lt.mp hc)
    linarith
  nlinarith [mul_nonneg hC (by linarith : (0 : ℝ) ≤ h - l)]

/-- the largest squared distance of the corners of a box to the centre of the joint, and of what was known -/
noncomputable def corners (f : ℝ → ℝ → ℝ → ℝ) (lo hi : V3 ℝ) (r : ℝ) : ℝ :=
  max (f hi.x hi.y hi.z) (max (f hi.x hi.y lo.z) (max (f hi.x lo.y hi.z) (max (f hi.x lo.y lo.z)
    (max (f lo.x hi.y hi.z) (max (f lo.x hi.y lo.z) (max (f lo.x lo.y hi.z) (max (f lo.x lo.y lo.z) r)))))))

theorem box_le_corners (M : SE3 ℝ) {lo hi p : V3 ℝ} (r : ℝ) (hx : lo.x ≤ p.x ∧ p.x ≤ hi.x) (hy : lo.y ≤ p.y ∧ p.y ≤ hi.y)
    (hz : lo.z ≤ p.z ∧ p.z ≤ hi.z) :
    (M.actP p).sqNorm ≤ corners (fun x y z => (M.actP ⟨x, y, z⟩).sqNorm) lo hi r := by
  have cx : ∀ x y z, lo.x ≤ x → x ≤ hi.x → (M.actP ⟨x, y, z⟩).sqNorm
      ≤ max (M.actP ⟨lo.x, y, z⟩).sqNorm (M.actP ⟨hi.x, y, z⟩).sqNorm := by
    intro x y z h1 h2
    have := quad_le_max (A := (M.actP ⟨0, y, z⟩).sqNorm) (B := 2 * (M.actP ⟨0, y, z⟩).dot M.rot.col0)
      (C := M.rot.col0.sqNorm) (by simp only [V3.sqNorm]; nlinarith [mul_self_nonneg M.rot.col0.x, mul_self_nonneg M.rot.col0.y, mul_self_nonneg M.rot.col0.z]) h1 h2
    have e : ∀ x, (M.actP ⟨x, y, z⟩).sqNorm = (M.actP ⟨0, y, z⟩).sqNorm
        + 2 * (M.actP ⟨0, y, z⟩).dot M.rot.col0 * x + M.rot.col0.sqNorm * (x * x) := by
      intro x
      simp only [SE3.actP, V3.sqNorm, V3.dot, M3.mulVec, M3.col0, V3.add_x, V3.add_y, V3.add_z]
      ring
    rw [e x, e lo.x, e hi.x]
    exact this
  have cy : ∀ x y z, lo.y ≤ y → y ≤ hi.y → (M.actP ⟨x, y, z⟩).sqNorm
      ≤ max (M.actP ⟨x, lo.y, z⟩).sqNorm (M.actP ⟨x, hi.y, z⟩).sqNorm := by
    intro x y z h1 h2
    have := quad_le_max (A := (M.actP ⟨x, 0, z⟩).sqNorm) (B := 2 * (M.actP ⟨x, 0, z⟩).dot M.rot.col1)
      (C := M.rot.col1.sqNorm) (by simp only [V3.sqNorm]; nlinarith [mul_self_nonneg M.rot.col1.x, mul_self_nonneg M.rot.col1.y, mul_self_nonneg M.rot.col1.z]) h1 h2
    have e : ∀ y, (M.actP ⟨x, y, z⟩).sqNorm = (M.actP ⟨x, 0, z⟩).sqNorm
        + 2 * (M.actP ⟨x, 0, z⟩).dot M.rot.col1 * y + M.rot.col1.sqNorm * (y * y) := by
      intro y
      simp only [SE3.actP, V3.sqNorm, V3.dot, M3.mulVec, M3.col1, V3.add_x, V3.add_y, V3.add_z]
      ring
    rw [e y, e lo.y, e hi.y]
    exact this
  have cz : ∀ x y z, lo.z ≤ z → z ≤ hi.z → (M.actP ⟨x, y, z⟩).sqNorm
      ≤ max (M.actP ⟨x, y, lo.z⟩).sqNorm (M.actP ⟨x, y, hi.z⟩).sqNorm := by
    intro x y z h1 h2
    have := quad_le_max (A := (M.actP ⟨x, y, 0⟩).sqNorm) (B := 2 * (M.actP ⟨x, y, 0⟩).dot M.rot.col2)
      (C := M.rot.col2.sqNorm) (by simp only [V3.sqNorm]; nlinarith [mul_self_nonneg M.rot.col2.x, mul_self_nonneg M.rot.col2.y, mul_self_nonneg M.rot.col2.z]) h1 h2
    have e : ∀ z, (M.actP ⟨x, y, z⟩).sqNorm = (M.actP ⟨x, y, 0⟩).sqNorm
        + 2 * (M.actP ⟨x, y, 0⟩).dot M.rot.col2 * z + M.rot.col2.sqNorm * (z * z) := by
      intro z
      simp only [SE3.actP, V3.sqNorm, V3.dot, M3.mulVec, M3.col2, V3.add_x, V3.add_y, V3.add_z]
      ring
    rw [e z, e lo.z, e hi.z]
    exact this
  have h := cx p.x p.y p.z hx.1 hx.2
  have hl := cy lo.x p.y p.z hy.1 hy.2
  have hh := cy hi.x p.y p.z hy.1 hy.2
  have a1 := cz lo.x lo.y p.z hz.1 hz.2
  have a2 := cz lo.x hi.y p.z hz.1 hz.2
  have a3 := cz hi.x lo.y p.z hz.1 hz.2
  have a4 := cz hi.x hi.y p.z hz.1 hz.2
  refine h.trans (max_le (hl.trans (max_le (a1.trans ?_) (a2.trans ?_))) (hh.trans (max_le (a3.trans ?_) (a4.trans ?_))))
  all_goals (unfold corners; apply max_le <;> simp only [le_max_iff, le_refl, true_or, or_true])

theorem le_corners (f : ℝ → ℝ → ℝ → ℝ) (lo hi : V3 ℝ) (r : ℝ) : r ≤ corners f lo hi r := by
  unfold corners; simp only [le_max_iff, le_refl, or_true]

theorem corners_attained (f : ℝ → ℝ → ℝ → ℝ) (lo hi : V3 ℝ) (r : ℝ) :
    corners f lo hi r = r ∨ ∃ x y z, (x = lo.x ∨ x = hi.x) ∧ (y = lo.y ∨ y = hi.y) ∧ (z = lo.z ∨ z = hi.z) ∧
      corners f lo hi r = f x y z := by
  unfold corners
  have key : ∀ (a b : ℝ), max a b = a ∨ max a b = b := fun a b => by
    rcases le_total a b with h | h
    · exact Or.inr (max_eq_right h)
    · exact Or.inl (max_eq_left h)
  rcases key (f hi.x hi.y hi.z) _ with h | h
  · exact Or.inr ⟨_, _, _, Or.inr rfl, Or.inr rfl, Or.inr rfl, h⟩
  rw [h]
  rcases key (f hi.x hi.y lo.z) _ with h | h
  · exact Or.inr ⟨_, _, _, Or.inr rfl, Or.inr rfl, Or.inl rfl, h⟩
  rw [h]
  rcases key (f hi.x lo.y hi.z) _ with h | h
  · exact Or.inr ⟨_, _, _, Or.inr rfl, Or.inl rfl, Or.inr rfl, h⟩
  rw [h]
  rcases key (f hi.x lo.y lo.z) _ with h | h
  · exact Or.inr ⟨_, _, _, Or.inr rfl, Or.inl rfl, Or.inl rfl, h⟩
  rw [h]
  rcases key (f lo.x hi.y hi.z) _ with h | h
  · exact Or.inr ⟨_, _, _, Or.inl rfl, Or.inr rfl, Or.inr rfl, h⟩
  rw [h]
  rcases key (f lo.x hi.y lo.z) _ with h | h
  · exact Or.inr ⟨_, _, _, Or.inl rfl, Or.inr rfl, Or.inl rfl, h⟩
  rw [h]
  rcases key (f lo.x lo.y hi.z) _ with h | h
  · exact Or.inr ⟨_, _, _, Or.inl rfl, Or.inl rfl, Or.inr rfl, h⟩
  rw [h]
  rcases key (f lo.x lo.y lo.z) r with h | h
  · exact Or.inr ⟨_, _, _, Or.inl rfl, Or.inl rfl, Or.inl rfl, h⟩
  exact Or.inl h

theorem radiusStep_eq (radius : List ℝ) (o : BoxObj) :
    radiusStep radius o = (radius[o.parentJoint]?).map fun r =>
      radius.set o.parentJoint
        (Real.sqrt (corners (fun x y z => (o.placement.actP ⟨x, y, z⟩).sqNorm) o.lo o.hi (r * r))) := by
  unfold radiusStep corners
  dsimp only
  cases radius[o.parentJoint]? <;> rfl

/-- the loop of `computeBodyRadius` -/
theorem radius_loop (objs : List BoxObj) : ∀ r r' : List ℝ, objs.foldlM radiusStep r = some r' →
    r'.length = r.length ∧ (∀ j, (r.getD j 0) ^ 2 ≤ (r'.getD j 0) ^ 2) ∧
    (∀ o ∈ objs, o.parentJoint < r.length ∧ ∀ p : V3 ℝ, o.lo.x ≤ p.x ∧ p.x ≤ o.hi.x → o.lo.y ≤ p.y ∧ p.y ≤ o.hi.y →
      o.lo.z ≤ p.z ∧ p.z ≤ o.hi.z → (o.placement.actP p).sqNorm ≤ (r'.getD o.parentJoint 0) ^ 2) ∧
    (∀ j, 0 ≤ r.getD j 0 → 0 ≤ r'.getD j 0) ∧
    (∀ j, r'.getD j 0 ^ 2 = r.getD j 0 ^ 2 ∨ ∃ o ∈ objs, o.parentJoint = j ∧ ∃ x y z, (x = o.lo.x ∨ x = o.hi.x) ∧
      (y = o.lo.y ∨ y = o.hi.y) ∧ (z = o.lo.z ∨ z = o.hi.z) ∧
      r'.getD j 0 ^ 2 = (o.placement.actP ⟨x, y, z⟩).sqNorm) := by
  induction objs with
  | nil =>
    intro r r' h
    simp only [List.foldlM_nil, pure, Option.some.injEq] at h
    subst h
    exact ⟨rfl, fun _ => le_rfl, by simp, fun _ h => h, fun _ => Or.inl rfl⟩
  | cons o t ih =>
    intro r r' h
    rw [List.foldlM_cons] at h
    rw [radiusStep_eq] at h
    rcases hro : r[o.parentJoint]? with _ | x
    · rw [hro] at h; simp at h
    rw [hro] at h
    simp only [Option.map_some, Option.bind_eq_bind, Option.bind_some] at h
    have hlt : o.parentJoint < r.length := (List.getElem?_eq_some_iff.mp hro).1
    have hgx : r.getD o.parentJoint 0 = x := by rw [List.getD_eq_getElem?_getD, hro]; rfl
    set F := fun x y z => (o.placement.actP ⟨x, y, z⟩).sqNorm with hF
    set C := corners F o.lo o.hi (x * x) with hC
    have hxC : x * x ≤ C := le_corners _ _ _ _
    have hC0 : 0 ≤ C := (mul_self_nonneg x).trans hxC
    have hsq : Real.sqrt C ^ 2 = C := Real.sq_sqrt hC0
    obtain ⟨h1, h2, h3, h4, h5⟩ := ih _ r' h
    rw [List.length_set] at h1
    have hself : (r.set o.parentJoint (Real.sqrt C)).getD o.parentJoint 0 = Real.sqrt C := by
      rw [List.getD_eq_getElem?_getD, List.getElem?_set_self hlt]; rfl
    have hother : ∀ j, j ≠ o.parentJoint → (r.set o.parentJoint (Real.sqrt C)).getD j 0 = r.getD j 0 := by
      intro j hj
      rw [List.getD_eq_getElem?_getD, List.getElem?_set_ne (Ne.symm hj), List.getD_eq_getElem?_getD]
    refine ⟨h1, fun j => ?_, fun o' ho' => ?_, fun j hj => ?_, fun j => ?_⟩
    · by_cases hj : j = o.parentJoint
      · subst hj
        have := h2 o.parentJoint
        rw [hself, hsq] at this
        rw [hgx, sq]
        exact hxC.trans this
      · have := h2 j
        rwa [hother j hj] at this
    · rcases List.mem_cons.mp ho' with rfl | ho'
      · refine ⟨hlt, fun p a b c => ?_⟩
        have := h2 o'.parentJoint
        rw [hself, hsq] at this
        exact (box_le_corners o'.placement (x * x) a b c).trans this
      · obtain ⟨a, b⟩ := h3 o' ho'
        rw [List.length_set] at a
        exact ⟨a, b⟩
    · apply h4
      by_cases hj' : j = o.parentJoint
      · subst hj'; rw [hself]; exact Real.sqrt_nonneg _
      · rw [hother j hj']; exact hj
    · rcases h5 j with h5 | ⟨o', ho', hj, w⟩
      · by_cases hj : j = o.parentJoint
        · subst hj
          rw [hself, hsq] at h5
          rcases corners_attained F o.lo o.hi (x * x) with hc | ⟨a, b, c, ha, hb, hc, e⟩
          · left; rw [h5, hgx, sq, ← hc]
          · right
            exact ⟨o, by simp, rfl, a, b, c, ha, hb, hc, by rw [h5, hC, e]⟩
        · rw [hother j hj] at h5
          exact Or.inl h5
      · exact Or.inr ⟨o', List.mem_cons_of_mem _ ho', hj, w⟩

theorem radius_total (objs : List BoxObj) : ∀ r : List ℝ, (∀ o ∈ objs, o.parentJoint < r.length) →
    ∃ r', objs.foldlM radiusStep r = some r' := by
  induction objs with
  | nil => intro r _; exact ⟨r, rfl⟩
  | cons o t ih =>
    intro r h
    have hlt := h o (by simp)
    rw [List.foldlM_cons, radiusStep_eq, List.getElem?_eq_getElem hlt]
    simp only [Option.map_some, Option.bind_eq_bind, Option.bind_some]
    apply ih
    intro o' ho'
    rw [List.length_set]
    exact h o' (List.mem_cons_of_mem _ ho')

theorem resizeVec_length (r : List ℝ) (n : ℕ) : (Pool.resizeVec 0 r n).length = n := by
  simp only [Pool.resizeVec, List.length_append, List.length_take, List.length_replicate]
  omega

/-! ## Theorems -/

/-- C70, `computeDistances`: the number returned is that of the first of the closest enabled pairs, or the number of
pairs when none is enabled; the distances of the enabled pairs, and only these, are those of the collision library. -/
theorem C70_distances [LinearOrder K] (enabled : ℕ → Bool) (dist : ℕ → K) (n : ℕ) (results : ℕ → K) :
    let r := computeDistances enabled dist n results
    ((∃ k < n, enabled k = true) → r.min_index < n ∧ enabled r.min_index = true ∧
      (∀ k < n, enabled k = true → dist r.min_index ≤ dist k) ∧
      ∀ k < r.min_index, enabled k = true → dist r.min_index < dist k) ∧
    ((∀ k < n, enabled k = false) → r.min_index = n) ∧
    (∀ k, r.results k = if k < n ∧ enabled k = true then dist k else results k) := by
  intro r
  obtain ⟨h1, ⟨-, h3⟩, h4⟩ := cdLoop_spec enabled dist (List.range n) ⟨n, ⊤, results⟩ List.nodup_range
  have hr : r = cdLoop enabled dist (List.range n) ⟨n, ⊤, results⟩ := rfl
  rw [← hr] at h1 h3 h4
  refine ⟨fun ⟨k, hk, hke⟩ => ?_, fun hn => ?_, fun k => ?_⟩
  · rcases h4 with ⟨-, h4⟩ | ⟨a, b, e1, e2, e3, -, e5⟩
    · have := h3 k (List.mem_range.mpr hk) hke
      rw [h4] at this
      exact absurd this (by simp)
    · have hlen : r.min_index = a.length := by
        have h := congrArg (fun l => l[a.length]?) e1
        simp only [List.getElem?_append_right (le_refl _), Nat.sub_self, List.getElem?_cons_zero] at h
        rw [List.getElem?_eq_some_iff] at h
        obtain ⟨hh, h⟩ := h
        rw [List.getElem_range] at h
        exact h.symm
      have hmem : r.min_index ∈ List.range n := by rw [e1]; simp
      refine ⟨List.mem_range.mp hmem, e2, fun k hk hke => ?_, fun k hk hke => ?_⟩
      · have := h3 k (List.mem_range.mpr hk) hke
        rw [e3] at this
        exact WithTop.coe_le_coe.mp this
      · have hka : k ∈ a := by
          have h := congrArg (fun l => l[k]?) e1
          have hkn : k < n := hk.trans (List.mem_range.mp hmem)
          rw [hlen] at hk
          simp only [List.getElem?_append_left hk, List.getElem?_range hkn] at h
          exact List.mem_of_getElem? h.symm
        have := e5 k hka hke
        rw [e3] at this
        exact WithTop.coe_lt_coe.mp this
  · rcases h4 with ⟨h4, -⟩ | ⟨a, b, e1, e2, -⟩
    · exact h4
    · have hmem : r.min_index ∈ List.range n := by rw [e1]; simp
      rw [hn _ (List.mem_range.mp hmem)] at e2
      exact absurd e2 (by simp)
  · rw [h1]
    simp only [List.mem_range]

/-- C70, `computeDistances` of a configuration: the distance of every enabled pair is that of its two objects placed by
the forward kinematics, whatever the geometry data and the data held. -/
theorem C70_distances_configuration [CommRing K] [LinearOrder K] (s : Sys K) (hp : ParOk s.par s.n) (d : Data K)
    (g : GeomModel) (hg : g.ngeoms = g.objects.length) (pl : ℕ → SE3 K) (lib : ℕ → SE3 K → SE3 K → K)
    (active : ℕ → Bool) (oMg : ℕ → SE3 K) (results : ℕ → K) (q : ℕ → K) {k a b : ℕ} {oa ob : GObj}
    (hk : g.pairs[k]? = some (a, b)) (ha : g.objects[a]? = some oa) (hb : g.objects[b]? = some ob)
    (hja : oa.parentJoint < s.n) (hjb : ob.parentJoint < s.n) (hact : active k = true)
    (hda : oa.disableCollision = false) (hdb : ob.disableCollision = false) :
    (computeDistancesQ s d g pl lib active oMg results q).2.results k
      = lib k (s.oM q oa.parentJoint * pl a) (s.oM q ob.parentJoint * pl b) := by
  have place : ∀ i o, g.objects[i]? = some o → o.parentJoint < s.n →
      updateGeometryPlacements g pl (forwardKinematics s d q).oMi oMg i = s.oM q o.parentJoint * pl i := by
    intro i o ho hj
    rw [(C35_placements g hg pl _ oMg).1 i o ho]
    split
    · rename_i h0
      rw [(fk0_ok hp d q o.parentJoint h0 hj).2.1]
    · rename_i h0
      have : o.parentJoint = 0 := by omega
      rw [this, s.oM_zero, SE3.one_mul]
  have hkl : k < g.pairs.length := (List.getElem?_eq_some_iff.mp hk).1
  have hen : pairEnabled g active k = true := by
    unfold pairEnabled
    simp [hact, hk, ha, hb, hda, hdb]
  unfold computeDistancesQ
  dsimp only
  rw [(C70_distances _ _ _ _).2.2 k, if_pos ⟨hkl, hen⟩]
  unfold pairDist
  rw [hk]
  dsimp only
  rw [place a oa ha hja, place b ob hb hjb]

/-- C70, `computeBodyRadius`: it is defined exactly when every object is attached to a joint of the model, and every
point of the box of every object is then within the radius of its joint from the origin of this joint, whatever
`radius` held. -/
theorem C70_radius (njoints : ℕ) (objs : List BoxObj) (radius : List ℝ) :
    ((∃ r', computeBodyRadius njoints objs radius = some r') ↔ ∀ o ∈ objs, o.parentJoint < njoints) ∧
    ∀ r', computeBodyRadius njoints objs radius = some r' → r'.length = njoints ∧
      ∀ o ∈ objs, ∀ p : V3 ℝ, o.lo.x ≤ p.x ∧ p.x ≤ o.hi.x → o.lo.y ≤ p.y ∧ p.y ≤ o.hi.y →
        o.lo.z ≤ p.z ∧ p.z ≤ o.hi.z →
        (o.placement.actP p).sqNorm ≤ (r'.getD o.parentJoint 0) ^ 2 := by
  refine ⟨⟨fun ⟨r', h⟩ o ho => ?_, fun h => ?_⟩, fun r' h => ?_⟩
  · have := ((radius_loop objs _ r' h).2.2.1 o ho).1
    rwa [resizeVec_length] at this
  · exact radius_total objs _ (fun o ho => by rw [resizeVec_length]; exact h o ho)
  · obtain ⟨h1, -, h3, -, -⟩ := radius_loop objs _ r' h
    exact ⟨by rw [h1, resizeVec_length], fun o ho => (h3 o ho).2⟩

/-- C70, `computeBodyRadius`, the part of the tightness that holds: on geometry data just built, whose radii are empty,
every radius is non-negative, and is zero or the distance of a corner of the box of an object attached to this joint.
Missing: a second call (`C70_radius_counterexample`). -/
theorem C70_radius_tight_partial (njoints : ℕ) (objs : List BoxObj) {r' : List ℝ}
    (h : computeBodyRadius njoints objs [] = some r') (j : ℕ) :
    0 ≤ r'.getD j 0 ∧ (r'.getD j 0 = 0 ∨ ∃ o ∈ objs, o.parentJoint = j ∧ ∃ x y z, (x = o.lo.x ∨ x = o.hi.x) ∧
      (y = o.lo.y ∨ y = o.hi.y) ∧ (z = o.lo.z ∨ z = o.hi.z) ∧
      (r'.getD j 0) ^ 2 = (o.placement.actP ⟨x, y, z⟩).sqNorm) := by
  obtain ⟨-, -, -, h4, h5⟩ := radius_loop objs _ r' h
  have h0 : (Pool.resizeVec (0 : ℝ) [] njoints).getD j 0 = 0 := by
    simp only [Pool.resizeVec, List.take_nil, List.nil_append, List.length_nil, Nat.sub_zero,
      List.getD_eq_getElem?_getD, List.getElem?_replicate]
    split <;> rfl
  refine ⟨h4 j (by rw [h0]), ?_⟩
  rcases h5 j with h5 | h5
  · left
    rw [h0] at h5
    simpa using h5
  · exact Or.inr h5

/-- `computeBodyRadius` never lowers a radius: called again after an object was moved closer to its joint, here from the
distance `2` to the distance `1`, or replaced by a smaller one, it keeps the old radius, because `resize` does not reset
the radii. -/
theorem C70_radius_counterexample :
    ∃ far near : BoxObj, ∃ r, computeBodyRadius 1 [far] [] = some r ∧
      computeBodyRadius 1 [near] r = some [2] ∧ computeBodyRadius 1 [near] [] = some [1] := by
  have s4 : Real.sqrt 4 = 2 := by
    rw [show (4 : ℝ) = 2 ^ 2 by norm_num]; exact Real.sqrt_sq (by norm_num)
  refine ⟨⟨0, 1, ⟨2, 0, 0⟩, ⟨2, 0, 0⟩⟩, ⟨0, 1, ⟨1, 0, 0⟩, ⟨1, 0, 0⟩⟩, [2], ?_, ?_, ?_⟩
  · simp [computeBodyRadius, radiusStep, Pool.resizeVec, SE3.actP, V3.sqNorm, M3.mulVec]
  · simp [computeBodyRadius, radiusStep, Pool.resizeVec, SE3.actP, V3.sqNorm, M3.mulVec]
    norm_num [s4]
  · simp [computeBodyRadius, radiusStep, Pool.resizeVec, SE3.actP, V3.sqNorm, M3.mulVec]

/-! ## The hypotheses are met -/

/-- three pairs, the second disabled: the closest enabled pair is the last -/
example : let en : ℕ → Bool := fun k => k != 1
    let di : ℕ → ℚ := fun k => [5, 1, 3].getD k 0
    (computeDistances en di 3 (fun _ => 7)).min_index = 2 ∧ (∃ k < 3, en k = true) := by
  refine ⟨by decide +kernel, 0, by decide, rfl⟩

/-- the model of five joints, with an object on joints 2 and 4 and one on the universe -/
example : let g : GeomModel := ⟨3, [⟨"a", 0, 2, false⟩, ⟨"b", 0, 0, false⟩, ⟨"c", 0, 4, false⟩], [(0, 1), (0, 2)], 0, fun _ _ => -1⟩
    ParOk Ex.sysA.par Ex.sysA.n ∧ g.ngeoms = g.objects.length ∧ g.pairs[1]? = some (0, 2) ∧
      (∃ oa ob, g.objects[0]? = some oa ∧ g.objects[2]? = some ob ∧ oa.parentJoint < Ex.sysA.n ∧
        ob.parentJoint < Ex.sysA.n ∧ oa.disableCollision = false ∧ ob.disableCollision = false) := by
  refine ⟨Ex.sysA_par, rfl, rfl, _, _, rfl, rfl, ?_, ?_, rfl, rfl⟩ <;> decide

end Pin
