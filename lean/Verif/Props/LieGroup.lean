import Verif.LieGroup.GroupLemmas
import Verif.LieGroup.Examples

/-!
# Configuration spaces (C24, C25, C26, C27)

`slotsOf m` lists the plain joints of the model (those of composite joints included, mimic joints excluded)
with their group `g` and the positions `iq`, `iv` of their segments; `C27_simple_joint` and `C27_tiling` say
what it contains. Configurations and velocities are vectors indexed by naturals.
-/

namespace Pin
open Lie Model Real

section
variable [HasEps ℝ] {p0 : LJ} {m : Model ℝ LJ} {ε : ℝ}

/-! ## C27: joint by joint, on disjoint segments -/

omit [HasEps ℝ] in
/-- a plain joint of the model is one of the slots, at the position the model stores for it -/
theorem C27_simple_joint {i : ℕ} {e : JEntry LJ} {g : LG} (hi : 1 ≤ i) (he : m.joints[i]? = some e)
    (hg : e.desc.payload = .simple g) : (⟨g, e.idx_q, e.idx_v⟩ : Slot) ∈ slotsOf m := by
  unfold slotsOf
  rw [List.mem_flatMap]
  refine ⟨e, ?_, ?_⟩
  · refine List.mem_of_getElem? (i := i - 1) ?_
    rw [List.getElem?_drop, Nat.add_sub_cancel' hi]; exact he
  · rw [hg, LJ.slots]; exact List.mem_singleton.2 rfl

example : (⟨.so2, 7, 6⟩ : Slot) ∈ slotsOf Ex.modL :=
  C27_simple_joint (i := 2) (by omega) (by rw [Ex.modL_joints]; rfl) rfl

/-- every entry of a configuration (of a velocity) belongs to the segment of exactly one joint, and no segment
goes past the end -/
theorem C27_tiling (h : Reach p0 m) (hp : PayloadOk m) :
    (∀ k, k < m.nq → ∃! i : ℕ, ∃ s, (slotsOf m)[i]? = some s ∧ s.iq ≤ k ∧ k < s.iq + s.g.nq) ∧
    (∀ k, k < m.nv → ∃! i : ℕ, ∃ s, (slotsOf m)[i]? = some s ∧ s.iv ≤ k ∧ k < s.iv + s.g.nv) ∧
    ∀ s ∈ slotsOf m, s.iq + s.g.nq ≤ m.nq ∧ s.iv + s.g.nv ≤ m.nv :=
  ⟨fun _ hk => (slotsOf_tiles h.inv hp).1.cover (Nat.zero_le _) hk,
   fun _ hk => (slotsOf_tiles h.inv hp).2.cover (Nat.zero_le _) hk,
   fun _ hs => slot_range h.inv hp hs⟩

/-- `integrate` writes each joint's segment with this joint's result, nothing else -/
theorem C27_integrate (h : Reach p0 m) (hp : PayloadOk m) (q v out : ℕ → ℝ) :
    (∀ s ∈ slotsOf m, ∀ k, k < s.g.nq → integrate ε m q v out (s.iq + k) =
      s.g.integrate ε (fun j => q (s.iq + j)) (fun j => v (s.iv + j)) k) ∧
    ∀ k, m.nq ≤ k → integrate ε m q v out k = out k := integrate_spec h.inv hp q v out

theorem C27_difference (h : Reach p0 m) (hp : PayloadOk m) (q0 q1 out : ℕ → ℝ) :
    (∀ s ∈ slotsOf m, ∀ k, k < s.g.nv → difference ε m q0 q1 out (s.iv + k) =
      s.g.difference ε (fun j => q0 (s.iq + j)) (fun j => q1 (s.iq + j)) k) ∧
    ∀ k, m.nv ≤ k → difference ε m q0 q1 out k = out k := difference_spec h.inv hp q0 q1 out

theorem C27_interpolate (h : Reach p0 m) (hp : PayloadOk m) (q0 q1 : ℕ → ℝ) (u : ℝ) (out : ℕ → ℝ) :
    (∀ s ∈ slotsOf m, ∀ k, k < s.g.nq → interpolate ε m q0 q1 u out (s.iq + k) =
      s.g.interpolate ε (fun j => q0 (s.iq + j)) (fun j => q1 (s.iq + j)) u k) ∧
    ∀ k, m.nq ≤ k → interpolate ε m q0 q1 u out k = out k := interpolate_spec h.inv hp q0 q1 u out

theorem C27_neutral (h : Reach p0 m) (hp : PayloadOk m) (out : ℕ → ℝ) :
    (∀ s ∈ slotsOf m, ∀ k, k < s.g.nq → neutral m out (s.iq + k) = s.g.neutral k) ∧
    ∀ k, m.nq ≤ k → neutral m out k = out k := neutral_spec h.inv hp out

/-- `normalize` works in place: each segment is normalised from its own previous content -/
theorem C27_normalize (h : Reach p0 m) (hp : PayloadOk m) (q : ℕ → ℝ) :
    (∀ s ∈ slotsOf m, ∀ k, k < s.g.nq → normalize m q (s.iq + k) = s.g.normalize (fun j => q (s.iq + j)) k) ∧
    ∀ k, m.nq ≤ k → normalize m q k = q k := normalize_spec h.inv hp q

/-- the results do not depend on the previous content of the output -/
theorem C27_output_content (h : Reach p0 m) (hp : PayloadOk m) (q v q1 : ℕ → ℝ) (u : ℝ) (out out' : ℕ → ℝ) :
    (∀ k, k < m.nq → integrate ε m q v out k = integrate ε m q v out' k) ∧
    (∀ k, k < m.nv → difference ε m q q1 out k = difference ε m q q1 out' k) ∧
    (∀ k, k < m.nq → interpolate ε m q q1 u out k = interpolate ε m q q1 u out' k) ∧
    (∀ k, k < m.nq → neutral m out k = neutral m out' k) := by
  refine ⟨all_q h.inv hp fun s hs => ?_, all_v h.inv hp fun s hs => ?_, all_q h.inv hp fun s hs => ?_,
    all_q h.inv hp fun s hs => ?_⟩
  · exact ((integrate_spec h.inv hp q v out).1 s hs).trans ((integrate_spec h.inv hp q v out').1 s hs).symm
  · exact ((difference_spec h.inv hp q q1 out).1 s hs).trans ((difference_spec h.inv hp q q1 out').1 s hs).symm
  · exact ((interpolate_spec h.inv hp q q1 u out).1 s hs).trans
      ((interpolate_spec h.inv hp q q1 u out').1 s hs).symm
  · exact ((neutral_spec h.inv hp out).1 s hs).trans ((neutral_spec h.inv hp out').1 s hs).symm

/-- `normalize` makes every unit part that is not zero unit, so that `isNormalized` accepts the result -/
theorem C27_normalize_unit (h : Reach p0 m) (hp : PayloadOk m) {q : ℕ → ℝ}
    (hq : ∀ s ∈ slotsOf m, s.g.unitPart.2 = 0 ∨
      ∃ k, k < s.g.unitPart.2 ∧ q (s.iq + (s.g.unitPart.1 + k)) ≠ 0) {p : ℝ} (hp0 : 0 < p) :
    (∀ s ∈ slotsOf m, s.g.Unit (seg (normalize m q) s.iq)) ∧ isNormalized m (normalize m q) p := by
  have key : ∀ s ∈ slotsOf m, s.g.Unit (seg (normalize m q) s.iq) := by
    intro s hs
    have e := (normalize_spec h.inv hp q).1 s hs
    have hq := hq s hs
    obtain ⟨g, iq, iv⟩ := s
    have hpos : g.unitPart.2 ≠ 0 → 0 < LG.sqn (seg q iq) g.unitPart.1 g.unitPart.2 := by
      intro h0
      rcases hq with h1 | ⟨k, hk, hne⟩
      · exact absurd h1 h0
      · exact Finset.sum_pos' (fun _ _ => mul_self_nonneg _)
          ⟨k, Finset.mem_range.2 hk, mul_self_pos.2 hne⟩
    cases g with
    | vec n => trivial
    | so2 => exact (sqn_congr e (unitPart_le .so2)).trans (sqn_eigenNormalize (hpos (by simp [LG.unitPart])))
    | so3 => exact (sqn_congr e (unitPart_le .so3)).trans (sqn_eigenNormalize (hpos (by simp [LG.unitPart])))
    | se2 => exact (sqn_congr e (unitPart_le .se2)).trans (sqn_eigenNormalize (hpos (by simp [LG.unitPart])))
    | se3 => exact (sqn_congr e (unitPart_le .se3)).trans (sqn_eigenNormalize (hpos (by simp [LG.unitPart])))
  refine ⟨key, fun s hs => ?_⟩
  have := key s hs
  obtain ⟨g, iq, iv⟩ := s
  cases g with
  | vec n => trivial
  | so2 => show |sqrt _ - 1| < p; rw [show LG.sqn _ _ _ = 1 from this, sqrt_one, sub_self, abs_zero]; exact hp0
  | so3 => show |sqrt _ - 1| < p; rw [show LG.sqn _ _ _ = 1 from this, sqrt_one, sub_self, abs_zero]; exact hp0
  | se2 => show |sqrt _ - 1| < p; rw [show LG.sqn _ _ _ = 1 from this, sqrt_one, sub_self, abs_zero]; exact hp0
  | se3 => show |sqrt _ - 1| < p; rw [show LG.sqn _ _ _ = 1 from this, sqrt_one, sub_self, abs_zero]; exact hp0

/-- the neutral configuration is normalised -/
theorem C27_neutral_unit (h : Reach p0 m) (hp : PayloadOk m) (out : ℕ → ℝ) :
    ∀ s ∈ slotsOf m, s.g.Unit (seg (neutral m out) s.iq) := by
  intro s hs
  have e := (neutral_spec h.inv hp out).1 s hs
  have u := s.g.neutral_unit
  obtain ⟨g, iq, iv⟩ := s
  cases g with
  | vec n => trivial
  | so2 => exact (sqn_congr e (unitPart_le .so2)).trans u
  | so3 => exact (sqn_congr e (unitPart_le .so3)).trans u
  | se2 => exact (sqn_congr e (unitPart_le .se2)).trans u
  | se3 => exact (sqn_congr e (unitPart_le .se3)).trans u

/-- `squaredDistance(model, q0, q1, out)`: entry `k` receives the squared distance of joint `k + 1` *added to*
its previous content; `squaredDistanceSum` is the sum over all plain joints. -/
theorem C27_squaredDistance_accumulates (q0 q1 out : ℕ → ℝ) (k : ℕ) :
    squaredDistance ε m q0 q1 out k = out k + ((m.joints[k + 1]?).elim 0 fun e =>
      ((e.desc.payload.slots e.idx_q e.idx_v).map fun s => s.g.sqDist ε (seg q0 s.iq) (seg q1 s.iq)).sum) := by
  unfold squaredDistance
  rw [sqDist_outer, if_pos (Nat.zero_le k), Nat.sub_zero, List.getElem?_drop, Nat.add_comm 1 k]

theorem C27_squaredDistanceSum (q0 q1 : ℕ → ℝ) : squaredDistanceSum ε m q0 q1 =
    ((slotsOf m).map fun s => s.g.sqDist ε (seg q0 s.iq) (seg q1 s.iq)).sum := by
  unfold squaredDistanceSum
  rw [sum_fold, zero_add]

/-- the distance of a normalised configuration to itself is zero -/
theorem C27_distance_self {q : ℕ → ℝ} (hu : ∀ s ∈ slotsOf m, s.g.Unit (seg q s.iq)) : distance ε m q q = 0 := by
  unfold distance
  rw [C27_squaredDistanceSum]
  have : ((slotsOf m).map fun s => s.g.sqDist ε (seg q s.iq) (seg q s.iq)).sum = 0 := by
    apply List.sum_eq_zero
    intro x hx
    obtain ⟨s, hs, rfl⟩ := List.mem_map.1 hx
    show LG.sqn _ 0 s.g.nv = 0
    unfold LG.sqn
    refine Finset.sum_eq_zero fun k hk => ?_
    rw [Finset.mem_range] at hk
    rw [Nat.zero_add, s.g.difference_self (hu s hs) hk, zero_mul]
  rw [this, sqrt_zero]

/-! ## C24: integrate and difference are inverse to each other -/

/-- `integrate(q0, difference(q0, q1)) = q1`, whatever the two output vectors contained -/
theorem C24_integrate_difference (h : Reach p0 m) (hp : PayloadOk m) {q0 q1 : ℕ → ℝ}
    (hq : ∀ s ∈ slotsOf m, s.g.Pair (seg q0 s.iq) (seg q1 s.iq)) (o1 o2 : ℕ → ℝ) :
    ∀ k, k < m.nq → integrate ε m q0 (difference ε m q0 q1 o1) o2 k = q1 k := by
  refine all_q h.inv hp fun s hs => ?_
  refine ((integrate_spec h.inv hp q0 _ o2).1 s hs).trans ?_
  exact (s.g.integrate_congr Same.rfl ((difference_spec h.inv hp q0 q1 o1).1 s hs)).trans (s.g.int_diff (hq s hs))

/-- the same on the segments of the joints that qualify, whatever the other joints are -/
theorem C24_integrate_difference_joint (h : Reach p0 m) (hp : PayloadOk m) {q0 q1 : ℕ → ℝ} {s : Slot}
    (hs : s ∈ slotsOf m) (hq : s.g.Pair (seg q0 s.iq) (seg q1 s.iq)) (o1 o2 : ℕ → ℝ) :
    ∀ k, k < s.g.nq → integrate ε m q0 (difference ε m q0 q1 o1) o2 (s.iq + k) = q1 (s.iq + k) :=
  ((integrate_spec h.inv hp q0 _ o2).1 s hs).trans
    ((s.g.integrate_congr Same.rfl ((difference_spec h.inv hp q0 q1 o1).1 s hs)).trans (s.g.int_diff hq))

/-- `difference(q, integrate(q, v)) = v` -/
theorem C24_difference_integrate (h : Reach p0 m) (hp : PayloadOk m) {q v : ℕ → ℝ}
    (hq : ∀ s ∈ slotsOf m, s.g.Unit (seg q s.iq)) (hv : ∀ s ∈ slotsOf m, s.g.Vel (seg v s.iv)) (o1 o2 : ℕ → ℝ) :
    ∀ k, k < m.nv → difference ε m q (integrate ε m q v o1) o2 k = v k := by
  refine all_v h.inv hp fun s hs => ?_
  refine ((difference_spec h.inv hp q _ o2).1 s hs).trans ?_
  exact (s.g.difference_congr Same.rfl ((integrate_spec h.inv hp q v o1).1 s hs)).trans
    (s.g.diff_int (hq s hs) (hv s hs))

/-- integrating a zero velocity changes nothing, for every joint type -/
theorem C24_integrate_zero (h : Reach p0 m) (hp : PayloadOk m) (he : 0 < ε) {q v : ℕ → ℝ}
    (hq : ∀ s ∈ slotsOf m, s.g.Unit (seg q s.iq)) (hv : ∀ k, k < m.nv → v k = 0) (out : ℕ → ℝ) :
    ∀ k, k < m.nq → integrate ε m q v out k = q k := by
  refine all_q h.inv hp fun s hs => ?_
  refine ((integrate_spec h.inv hp q v out).1 s hs).trans (s.g.integrate_zero he (hq s hs) ?_)
  intro k hk
  have := (slot_range h.inv hp hs).2
  exact hv _ (by omega)

/-- the difference of a configuration to itself is zero, for every joint type -/
theorem C24_difference_self (h : Reach p0 m) (hp : PayloadOk m) {q : ℕ → ℝ}
    (hq : ∀ s ∈ slotsOf m, s.g.Unit (seg q s.iq)) (out : ℕ → ℝ) :
    ∀ k, k < m.nv → difference ε m q q out k = 0 := by
  refine all_v (y := fun _ => 0) h.inv hp fun s hs k hk => ?_
  rw [(difference_spec h.inv hp q q out).1 s hs k hk]
  exact s.g.difference_self (hq s hs) hk

/-- the admissible pairs and velocities, spelled out for SO(2) -/
example (q0 q1 : ℕ → ℝ) : LG.Pair .so2 q0 q1 ↔
    q0 0 * q0 0 + q0 1 * q0 1 = 1 ∧ q1 0 * q1 0 + q1 1 * q1 1 = 1 := by
  unfold LG.Pair LG.Unit
  simp only [LG.unitPart, sqn_so2]

/-! ## C26: interpolation -/

/-- `interpolate(q0, q1, 0) = q0` for every joint type -/
theorem C26_start (h : Reach p0 m) (hp : PayloadOk m) (he : 0 < ε) {q0 q1 : ℕ → ℝ}
    (h0 : ∀ s ∈ slotsOf m, s.g.Unit (seg q0 s.iq)) (h1 : ∀ s ∈ slotsOf m, s.g.Unit (seg q1 s.iq))
    (out : ℕ → ℝ) : ∀ k, k < m.nq → interpolate ε m q0 q1 0 out k = q0 k := by
  refine all_q h.inv hp fun s hs => ?_
  refine ((interpolate_spec h.inv hp q0 q1 0 out).1 s hs).trans ?_
  have u0 := h0 s hs
  have u1 := h1 s hs
  obtain ⟨g, iq, iv⟩ := s
  cases g with
  | so2 =>
    have u0 : LG.sqn (seg q0 iq) 0 2 = 1 := u0
    have u1 : LG.sqn (seg q1 iq) 0 2 = 1 := u1
    rw [sqn_so2] at u0 u1
    exact fun k _ => so2Interp_zero u0 u1 k
  | vec n => exact LG.integrate_zero he (.vec n) u0 fun k _ => zero_mul _
  | so3 => exact LG.integrate_zero he .so3 u0 fun k _ => zero_mul _
  | se2 => exact LG.integrate_zero he .se2 u0 fun k _ => zero_mul _
  | se3 => exact LG.integrate_zero he .se3 u0 fun k _ => zero_mul _

/-- the pair is one on which interpolation reaches its end exactly -/
def EndPair (g : LG) (q0 q1 : ℕ → ℝ) : Prop := match g with
  | .so2 => LG.Unit .so2 q0 ∧ LG.Unit .so2 q1 ∧
    |atan2 (q0 0 * q1 1 - q0 1 * q1 0) (q0 0 * q1 0 + q0 1 * q1 1)| < π - 1 / 10 ^ 6
  | g => g.Pair q0 q1

/-- `interpolate(q0, q1, 1) = q1` for vector spaces, for SO(2) away from the antipode, for SE(2) when the
angle is zero or at least `1e-4`. Missing: SO(3) and SE(3), where the code only approximates `q1` (and may
return `-q1`); `C26_antipode_counterexample` shows that the restriction on SO(2) is needed. -/
theorem C26_end_partial (h : Reach p0 m) (hp : PayloadOk m) {q0 q1 : ℕ → ℝ}
    (hq : ∀ s ∈ slotsOf m, EndPair s.g (seg q0 s.iq) (seg q1 s.iq)) (out : ℕ → ℝ) :
    ∀ k, k < m.nq → interpolate ε m q0 q1 1 out k = q1 k := by
  refine all_q h.inv hp fun s hs => ?_
  refine ((interpolate_spec h.inv hp q0 q1 1 out).1 s hs).trans ?_
  have hq := hq s hs
  obtain ⟨g, iq, iv⟩ := s
  have one : ∀ g : LG, Same g.nq (g.integrate ε (seg q0 iq) fun k => 1 * g.difference ε (seg q0 iq) (seg q1 iq) k)
      (g.integrate ε (seg q0 iq) (g.difference ε (seg q0 iq) (seg q1 iq))) :=
    fun g => g.integrate_congr Same.rfl fun k _ => one_mul _
  cases g with
  | so2 =>
    obtain ⟨u0, u1, ht⟩ := hq
    have u0 : LG.sqn (seg q0 iq) 0 2 = 1 := u0
    have u1 : LG.sqn (seg q1 iq) 0 2 = 1 := u1
    rw [sqn_so2] at u0 u1
    exact fun k _ => so2Interp_one u0 u1 ht k
  | vec n => exact (one _).trans (LG.int_diff (.vec n) hq)
  | so3 => exact absurd hq id
  | se2 => exact (one _).trans (LG.int_diff .se2 hq)
  | se3 => exact absurd hq id

omit [HasEps ℝ] in
/-- interpolation on SO(2) stays on the unit circle for every parameter, outside a neighbourhood of `q0` -/
theorem C26_so2_unit {q0 q1 : ℕ → ℝ} (h0 : q0 0 * q0 0 + q0 1 * q0 1 = 1) (h1 : q1 0 * q1 0 + q1 1 * q1 1 = 1)
    (hl : 1 / 10 ^ 6 ≤ |atan2 (q0 0 * q1 1 - q0 1 * q1 0) (q0 0 * q1 0 + q0 1 * q1 1)|) (u : ℝ) :
    (LG.so2.interpolate ε q0 q1 u 0) ^ 2 + (LG.so2.interpolate ε q0 q1 u 1) ^ 2 = 1 := by
  have := so2Interp_unit h0 h1 hl u
  rw [pow_two, pow_two]; exact this

omit [HasEps ℝ] in
/-- on SO(2), interpolation to the opposite orientation never leaves `q0`, so that it does not end at `q1` -/
theorem C26_antipode_counterexample {q0 : ℕ → ℝ} (h0 : q0 0 * q0 0 + q0 1 * q0 1 = 1) (u : ℝ) :
    LG.Unit .so2 (fun k => -q0 k) ∧ (∀ k, LG.so2.interpolate ε q0 (fun k => -q0 k) u k = q0 k) ∧
    ∃ k, k < LG.so2.nq ∧ LG.so2.interpolate ε q0 (fun k => -q0 k) 1 k ≠ -q0 k := by
  have key : ∀ u k, LG.so2.interpolate ε q0 (fun k => -q0 k) u k = q0 k := by
    intro u k
    simp only [LG.interpolate]
    unfold so2Interp
    have hs : q0 0 * -q0 1 - q0 1 * -q0 0 = 0 := by ring
    have hc : q0 0 * -q0 0 + q0 1 * -q0 1 = -1 := by linear_combination -h0
    have ha : atan2 0 (-1) = π := by
      unfold atan2
      have : (⟨-1, 0⟩ : ℂ) = -1 := by apply Complex.ext <;> simp
      rw [this, Complex.arg_neg_one]
    simp only [hs, hc, ha]
    rw [abs_of_pos pi_pos, if_neg (by have := two_le_pi; norm_num at *; linarith), if_neg (by norm_num)]
  refine ⟨?_, key u, ?_⟩
  · show LG.sqn _ 0 2 = 1
    rw [sqn_so2]; linear_combination h0
  · by_cases hz : q0 0 = 0
    · refine ⟨1, by simp [LG.nq], ?_⟩
      rw [key]
      intro e
      have : q0 1 = 0 := by linarith
      rw [hz, this] at h0; norm_num at h0
    · refine ⟨0, by simp [LG.nq], ?_⟩
      rw [key]
      intro e
      exact hz (by linarith)

omit [HasEps ℝ] in
/-- on SO(3), interpolation to the opposite quaternion (the same rotation) returns `q0` -/
theorem C26_so3_opposite (he : 0 < ε) {q : Quat ℝ} (h : q.sqNorm = 1) (u : ℝ) {k : ℕ} (hk : k < 4) :
    LG.so3.interpolate ε (qcoef q) (qcoef (-q)) u k = qcoef q k ∧ (-q).toMat = q.toMat := by
  refine ⟨?_, Quat.toMat_neg q⟩
  refine LG.integrate_zero he .so3 (q := qcoef q) ?_ ?_ k hk
  · show LG.sqn _ 0 4 = 1
    rw [sqn_so3, quatAt_qcoef, h]
  · intro j hj
    simp only [LG.difference]
    rw [quatAt_qcoef, quatAt_qcoef, so3Diff_neg ε h, vcoef_zero, mul_zero]

/-! ## C25: repeated integration stays on the manifold -/

/-- SO(2): the unit-norm error is squared by every call, whatever the velocities; it never grows, and stays
zero when it is zero. `o n` is what the output of call `n` contained before the call. -/
theorem C25_so2 (h : Reach p0 m) (hp : PayloadOk m) {q v o : ℕ → ℕ → ℝ}
    (hq : ∀ n k, k < m.nq → q (n + 1) k = integrate ε m (q n) (v n) (o n) k) {s : Slot} (hs : s ∈ slotsOf m)
    (hg : s.g = .so2) (h0 : s.g.err (seg (q 0) s.iq) ≤ 1 / 2) (n : ℕ) :
    s.g.err (seg (q (n + 1)) s.iq) ≤ s.g.err (seg (q n) s.iq) ^ 2 ∧
    s.g.err (seg (q n) s.iq) ≤ s.g.err (seg (q 0) s.iq) ^ (2 ^ n) ∧
    s.g.err (seg (q n) s.iq) ≤ s.g.err (seg (q 0) s.iq) := by
  have nn : ∀ n, 0 ≤ s.g.err (seg (q n) s.iq) := fun n => abs_nonneg _
  have step : ∀ n, s.g.err (seg (q n) s.iq) ≤ 1 / 2 →
      s.g.err (seg (q (n + 1)) s.iq) ≤ s.g.err (seg (q n) s.iq) ^ 2 := by
    intro n hn
    have hr := (slot_range h.inv hp hs).1
    have e : Same s.g.nq (seg (q (n + 1)) s.iq) (seg (integrate ε m (q n) (v n) (o n)) s.iq) :=
      fun k hk => hq n _ (by omega)
    rw [s.g.err_congr (e.trans ((integrate_spec h.inv hp _ _ _).1 s hs))]
    obtain ⟨g, iq, iv⟩ := s
    dsimp only at *
    subst hg
    exact err_so2 _ _ hn
  have all : ∀ n, s.g.err (seg (q n) s.iq) ≤ s.g.err (seg (q 0) s.iq) ^ (2 ^ n) ∧
      s.g.err (seg (q n) s.iq) ≤ s.g.err (seg (q 0) s.iq) := by
    intro n
    induction n with
    | zero => simp
    | succ n ih =>
      have st := step n (ih.2.trans h0)
      constructor
      · refine st.trans ?_
        rw [pow_succ 2 n, pow_mul]
        exact pow_le_pow_left₀ (nn n) ih.1 2
      · have := nn n
        nlinarith [ih.2]
  exact ⟨step n ((all n).2.trans h0), all n⟩

/-- SO(3) and SE(3): every call maps the error `e` to at most `(e + 3/2 δ)²`, and after any number of calls
with arbitrary velocities it is at most the larger of the initial error and `7 δ²`, where
`δ = ε^(3/4) / 23040` bounds the error of one exponential (about `8e-17` in double precision).
Missing: "exactly unit stays exactly unit", which is false (`C25_exact_counterexample`). -/
theorem C25_so3_se3_partial (h : Reach p0 m) (hp : PayloadOk m) (he : 0 < ε) (he2 : ε ≤ 1 / 2 ^ 20)
    {q v o : ℕ → ℕ → ℝ} (hq : ∀ n k, k < m.nq → q (n + 1) k = integrate ε m (q n) (v n) (o n) k) {s : Slot}
    (hs : s ∈ slotsOf m) (hg : s.g = .so3 ∨ s.g = .se3) (h0 : s.g.err (seg (q 0) s.iq) ≤ 1 / 2) (n : ℕ) :
    s.g.err (seg (q (n + 1)) s.iq) ≤ (s.g.err (seg (q n) s.iq) + 3 / 2 * (ε ^ ((3 : ℝ) / 4) / 23040)) ^ 2 ∧
    s.g.err (seg (q n) s.iq) ≤ max (s.g.err (seg (q 0) s.iq)) (7 * (ε ^ ((3 : ℝ) / 4) / 23040) ^ 2) := by
  have hd : ε ^ ((3 : ℝ) / 4) / 23040 = expErr ε := by
    unfold expErr prec
    rw [← rpow_natCast, ← rpow_mul he.le]
    norm_num
  rw [hd]
  have hd0 := expErr_nonneg he
  have hd1 := expErr_le he he2
  have step : ∀ n, s.g.err (seg (q n) s.iq) ≤ 1 / 2 →
      s.g.err (seg (q (n + 1)) s.iq) ≤ (s.g.err (seg (q n) s.iq) + 3 / 2 * expErr ε) ^ 2 := by
    intro n hn
    have hr := (slot_range h.inv hp hs).1
    have e : Same s.g.nq (seg (q (n + 1)) s.iq) (seg (integrate ε m (q n) (v n) (o n)) s.iq) :=
      fun k hk => hq n _ (by omega)
    rw [s.g.err_congr (e.trans ((integrate_spec h.inv hp _ _ _).1 s hs))]
    obtain ⟨g, iq, iv⟩ := s
    dsimp only at *
    rcases hg with rfl | rfl
    · exact err_so3 he he2 _ _ hn
    · exact err_se3 he he2 _ _ hn
  have hM : max (s.g.err (seg (q 0) s.iq)) (7 * expErr ε ^ 2) ≤ 1 / 2 := by
    refine max_le h0 ?_
    norm_num at hd1
    nlinarith
  have all : ∀ n, s.g.err (seg (q n) s.iq) ≤ max (s.g.err (seg (q 0) s.iq)) (7 * expErr ε ^ 2) := by
    intro n
    induction n with
    | zero => exact le_max_left _ _
    | succ n ih =>
      exact (step n (ih.trans hM)).trans (step_bound hd0 hd1 (le_max_right _ _) hM (abs_nonneg _) ih)
  exact ⟨step n ((all n).trans hM), all n⟩

/-- SE(2): the norm of the orientation part is exactly preserved (and never corrected) -/
theorem C25_se2 (h : Reach p0 m) (hp : PayloadOk m) {q v o : ℕ → ℕ → ℝ}
    (hq : ∀ n k, k < m.nq → q (n + 1) k = integrate ε m (q n) (v n) (o n) k) {s : Slot} (hs : s ∈ slotsOf m)
    (hg : s.g = .se2) (n : ℕ) : s.g.err (seg (q n) s.iq) = s.g.err (seg (q 0) s.iq) := by
  induction n with
  | zero => rfl
  | succ n ih =>
    rw [← ih]
    have hr := (slot_range h.inv hp hs).1
    have e : Same s.g.nq (seg (q (n + 1)) s.iq) (seg (integrate ε m (q n) (v n) (o n)) s.iq) :=
      fun k hk => hq n _ (by omega)
    rw [s.g.err_congr (e.trans ((integrate_spec h.inv hp _ _ _).1 s hs))]
    obtain ⟨g, iq, iv⟩ := s
    dsimp only at *
    subst hg
    exact err_se2 _ _

omit [HasEps ℝ] in
/-- SO(3): a configuration of norm exactly 1 does not keep norm exactly 1 (in exact arithmetic): every unit
quaternion has a velocity that breaks it. -/
theorem C25_exact_counterexample (he : 0 < ε) (he2 : ε ≤ 1 / 2 ^ 20) {q : ℕ → ℝ}
    (hu : LG.Unit .so3 q) : ∃ v, ¬ LG.Unit .so3 (LG.so3.integrate ε q v) := by
  have hp := prec_pos he 3
  have hp2 := prec3_le he he2
  refine ⟨fun k => if k = 0 then sqrt (prec ε 3) else 0, fun hc => ?_⟩
  have hu : LG.sqn q 0 4 = 1 := hu
  have hc : LG.sqn (qcoef _) 0 4 = 1 := hc
  rw [sqn_so3, quatAt_qcoef] at hc
  rw [sqn_so3] at hu
  have hn : (vecAt (fun k => if k = 0 then sqrt (prec ε 3) else 0) 0).sqNorm = prec ε 3 := by
    simp [vecAt, V3.sqNorm, V3.dot, mul_self_sqrt hp.le]
  have hf := fon_sqNorm (quatAt q 0 * exp3 ε (vecAt (fun k => if k = 0 then sqrt (prec ε 3) else 0) 0))
  rw [Quat.sqNorm_mul, hu, one_mul, exp3_taylor (by rw [hn]; exact lt_irrefl _), hn] at hf
  unfold so3Int at hc
  rw [hc] at hf
  generalize prec ε 3 = p at *
  have a1 : 0 < (p / 4) ^ 3 * (1 / 360 - p / 4 / 960 + (p / 4) ^ 2 / 14400) := by
    have : 0 < 1 / 360 - p / 4 / 960 + (p / 4) ^ 2 / 14400 := by nlinarith
    positivity
  have a2 : (p / 4) ^ 3 * (1 / 360 - p / 4 / 960 + (p / 4) ^ 2 / 14400) ≤ 1 := by
    have b1 : 1 / 360 - p / 4 / 960 + (p / 4) ^ 2 / 14400 ≤ 1 := by nlinarith
    have b2 : (p / 4) ^ 3 ≤ 1 := pow_le_one₀ (by positivity) (by linarith)
    have b3 : 0 ≤ (p / 4) ^ 3 := by positivity
    nlinarith
  nlinarith [sq_nonneg ((p / 4) ^ 3 * (1 / 360 - p / 4 / 960 + (p / 4) ^ 2 / 14400)), sq_pos_of_pos a1]

end

/-! ## witnesses -/

section
open Ex

example : ∃ s, s ∈ slotsOf modL ∧ s.g = .so3 := ⟨⟨.so3, 13, 10⟩, by rw [modL_slots]; simp, rfl⟩

/-- the neutral configuration of the example, which has one joint of each kind and a composite joint -/
noncomputable def qL : ℕ → ℝ := neutral modL fun _ => 5

theorem qL_unit : ∀ s ∈ slotsOf modL, s.g.Unit (seg qL s.iq) := C27_neutral_unit modL_reach modL_ok _

example (out : ℕ → ℝ) : ∀ k, k < 18 → integrate (1 / 2 ^ 52) modL qL (fun _ => 0) out k = qL k :=
  C24_integrate_zero modL_reach modL_ok (by positivity) qL_unit (fun _ _ => rfl) out

/-- repeated integration of the example from its neutral configuration -/
noncomputable def qSeq (v : ℕ → ℕ → ℝ) : ℕ → ℕ → ℝ
  | 0 => qL
  | n + 1 => integrate (1 / 2 ^ 52) modL (qSeq v n) (v n) (fun _ => 0)

example (v : ℕ → ℕ → ℝ) (n : ℕ) : LG.err .so3 (seg (qSeq v n) 13) ≤
    max (LG.err .so3 (seg qL 13)) (7 * ((1 / 2 ^ 52 : ℝ) ^ ((3 : ℝ) / 4) / 23040) ^ 2) := by
  refine (C25_so3_se3_partial (q := qSeq v) (s := ⟨.so3, 13, 10⟩) modL_reach modL_ok (by positivity) (by norm_num)
    (fun _ _ _ => rfl) (by rw [modL_slots]; simp) (.inl rfl) ?_ n).2
  have := qL_unit ⟨.so3, 13, 10⟩ (by rw [modL_slots]; simp)
  have e : LG.sqn (seg qL 13) 0 4 = 1 := this
  show |LG.sqn (seg qL 13) 0 4 - 1| ≤ 1 / 2
  rw [e]; norm_num

example (v : ℕ → ℕ → ℝ) (n : ℕ) : LG.err .so2 (seg (qSeq v n) 7) = 0 := by
  have e : LG.sqn (seg qL 7) 0 2 = 1 := qL_unit ⟨.so2, 7, 6⟩ (by rw [modL_slots]; simp)
  have e0 : LG.err .so2 (seg (qSeq v 0) 7) = 0 := by
    show |LG.sqn (seg qL 7) 0 2 - 1| = 0
    rw [e, sub_self, abs_zero]
  have := (C25_so2 (q := qSeq v) (s := ⟨.so2, 7, 6⟩) modL_reach modL_ok (fun _ _ _ => rfl)
    (by rw [modL_slots]; simp) rfl (by show LG.err .so2 (seg (qSeq v 0) 7) ≤ 1 / 2; rw [e0]; norm_num) n).2.2
  have this : LG.err .so2 (seg (qSeq v n) 7) ≤ LG.err .so2 (seg (qSeq v 0) 7) := this
  rw [e0] at this
  exact le_antisymm this (abs_nonneg _)

/-- a turn of 90 degrees of the wheel: admissible for the round trips -/
example : LG.Pair .so2 (fun k => if k = 0 then 1 else 0) (fun k => if k = 0 then 0 else 1) ∧
    LG.Vel .so2 (fun _ => π) := by
  refine ⟨?_, ?_, le_refl _⟩
  · unfold LG.Pair LG.Unit
    simp [LG.unitPart, sqn_so2]
  · linarith [pi_pos]

/-- `squaredDistance(model, q0, q1, out)` depends on what `out` contained: the loop adds to it. -/
theorem C21_squaredDistance_counterexample : ∃ (m : Model ℝ LJ) (q0 q1 out out' : ℕ → ℝ),
    Reach .mimic m ∧ PayloadOk m ∧
    squaredDistance (1 / 2 ^ 52) m q0 q1 out 0 ≠ squaredDistance (1 / 2 ^ 52) m q0 q1 out' 0 := by
  refine ⟨modL, qL, qL, fun _ => 0, fun _ => 1, modL_reach, modL_ok, ?_⟩
  rw [C27_squaredDistance_accumulates, C27_squaredDistance_accumulates]
  intro e
  have := add_right_cancel e
  norm_num at this

end
end Pin
