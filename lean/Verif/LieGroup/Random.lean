import Verif.LieGroup.GroupLemmas
import Verif.Tree.Basic
import Mathlib.Analysis.SpecialFunctions.Complex.Arg

/-!
# Random configurations

`randomConfiguration` (`joint-configuration.hxx:150-183, 620-650`) and the `randomConfiguration_impl` of the Lie groups.
`rand()` is a stream of numbers between 0 and `RAND_MAX` (in the code they are integers; the theorems hold for every stream).
The limits and the vector coordinates are numbers with infinities, where a real result beyond the largest finite number
`big` overflows; the rounding of the results within range is not modelled.
-/

namespace Pin.Lie
open Pin Model Real

/-- a floating-point value: a real number, an infinity or a NaN -/
inductive Fl where
  | fin (x : ℝ)
  | pinf
  | ninf
  | nan

namespace Fl

/-- a real result, with overflow beyond `big` -/
noncomputable def rd (big x : ℝ) : Fl := if big < x then pinf else if x < -big then ninf else fin x

/-- `-x` -/
def neg : Fl → Fl
  | fin x => fin (-x)
  | pinf => ninf
  | ninf => pinf
  | nan => nan

/-- `x + y` -/
noncomputable def add (big : ℝ) : Fl → Fl → Fl
  | nan, _ => nan
  | _, nan => nan
  | pinf, ninf => nan
  | ninf, pinf => nan
  | pinf, _ => pinf
  | _, pinf => pinf
  | ninf, _ => ninf
  | _, ninf => ninf
  | fin a, fin b => rd big (a + b)

/-- `x * r` for a finite `r ≥ 0` -/
noncomputable def mulr (big : ℝ) (x : Fl) (r : ℝ) : Fl := match x with
  | fin a => rd big (a * r)
  | pinf => if r = 0 then nan else pinf
  | ninf => if r = 0 then nan else ninf
  | nan => nan

/-- `x / R` for a finite `R > 0` -/
noncomputable def divr (big : ℝ) (x : Fl) (R : ℝ) : Fl := match x with
  | fin a => rd big (a / R)
  | x => x

/-- the value is finite -/
def Finite : Fl → Prop
  | fin _ => True
  | _ => False

/-- `x == -infinity` -/
def isNinf : Fl → Bool
  | ninf => true
  | _ => false

/-- `x == infinity` -/
def isPinf : Fl → Bool
  | pinf => true
  | _ => false

end Fl

/-- the loop of `VectorSpaceOperationTpl::randomConfiguration_impl`, `vector-space.hpp:292-312`, over the first `n` coordinates;
`none`: `std::range_error` -/
noncomputable def vecRandom (big R : ℝ) (lo hi : ℕ → Fl) (r : ℕ → ℝ) : ℕ → (ℕ → Fl) → Option (ℕ → Fl)
  | 0, res => some res
  | i + 1, res =>
    match vecRandom big R lo hi r i res with
    | none => none
    | some res =>
      if (lo i).isNinf || (hi i).isPinf then none
      else some (upd res i (Fl.add big (lo i) (Fl.divr big (Fl.mulr big (Fl.add big (hi i) (lo i).neg) (r i)) R)))

/-- `SpecialOrthogonalOperationTpl<2>::random_impl`, `special-orthogonal.hpp:345-353` -/
noncomputable def so2Random (R r : ℝ) : ℝ × ℝ :=
  let angle := -π + 2 * π * r / R
  (cos angle, sin angle)

/-- `quaternion::uniformRandom`, `math/quaternion.hpp:114-137` -/
noncomputable def uniformRandom (R r1 r2 r3 : ℝ) : Quat ℝ :=
  let u1 := r1 / R
  let u2 := r2 / R
  let u3 := r3 / R
  let mult1 := sqrt (1 - u1)
  let mult2 := sqrt u1
  ⟨mult1 * cos (2 * π * u2), mult2 * sin (2 * π * u3), mult2 * cos (2 * π * u3), mult1 * sin (2 * π * u2)⟩

namespace LG

/-- number of calls of `rand()` -/
def draws : LG → ℕ
  | vec n => n
  | so2 => 1
  | so3 => 3
  | se2 => 3
  | se3 => 6

/-- number of coordinates for which the limits are used: those of the vector space and of the translations -/
def bounded : LG → ℕ
  | vec n => n
  | so2 => 0
  | so3 => 0
  | se2 => 2
  | se3 => 3

/-- `randomConfiguration_impl`: `vector-space.hpp:292-312`, `special-orthogonal.hpp:355-362, 682-689`;
`special-euclidean.hpp:501-508, 909-916` and `cartesian-product.hpp:275-283`: the translation then the rotation. -/
noncomputable def random (big R : ℝ) (g : LG) (lo hi : ℕ → Fl) (r : ℕ → ℝ) : Option (ℕ → Fl) := match g with
  | vec n => vecRandom big R lo hi r n fun _ => .nan
  | so2 => some fun k => .fin (if k = 0 then (so2Random R (r 0)).1 else (so2Random R (r 0)).2)
  | so3 => some fun k => .fin (qcoef (uniformRandom R (r 0) (r 1) (r 2)) k)
  | se2 => (vecRandom big R lo hi r 2 fun _ => .nan).map fun x k =>
      if k < 2 then x k else .fin (if k = 2 then (so2Random R (r 2)).1 else (so2Random R (r 2)).2)
  | se3 => (vecRandom big R lo hi r 3 fun _ => .nan).map fun x k =>
      if k < 3 then x k else .fin (qcoef (uniformRandom R (r 3) (r 4) (r 5)) (k - 3))

end LG

/-- `vec.segment(i, n) = x` -/
def writeF (out : ℕ → Fl) (i n : ℕ) (x : ℕ → Fl) : ℕ → Fl := fun k => if i ≤ k ∧ k < i + n then x (k - i) else out k

/-- the loop of `randomConfiguration`, `joint-configuration.hxx:176-182`, with `RandomConfigurationStepAlgo::run`,
`liegroup-algo.hxx:585-599`; the result has the configuration and the number of calls of `rand()` so far -/
noncomputable def randomSlots (big R : ℝ) (lo hi : ℕ → Fl) (r : ℕ → ℝ) : List Slot → (ℕ → Fl) → ℕ → Option ((ℕ → Fl) × ℕ)
  | [], out, t => some (out, t)
  | s :: l, out, t =>
    match s.g.random big R (fun k => lo (s.iq + k)) (fun k => hi (s.iq + k)) (fun j => r (t + j)) with
    | none => none
    | some x => randomSlots big R lo hi r l (writeF out s.iq s.g.nq x) (t + s.g.draws)

/-- `randomConfiguration(model, lowerLimits, upperLimits, qout)`, `joint-configuration.hxx:150-182` -/
noncomputable def randomConfiguration (big R : ℝ) (m : Model ℝ LJ) (lo hi : ℕ → Fl) (r : ℕ → ℝ) (out : ℕ → Fl) :
    Option ((ℕ → Fl) × ℕ) := randomSlots big R lo hi r (slotsOf m) out 0

/-- `randomConfiguration(model)`, `joint-configuration.hxx:634-648`, for a model with finite limits -/
noncomputable def randomConfigurationModel (big R : ℝ) (m : Model ℝ LJ) (r : ℕ → ℝ) (out : ℕ → Fl) : Option ((ℕ → Fl) × ℕ) :=
  randomConfiguration big R m (fun k => .fin (m.lowerPositionLimit.getD k 0)) (fun k => .fin (m.upperPositionLimit.getD k 0)) r out

/-! ## lemmas -/

theorem rd_of {big x : ℝ} (h1 : -big ≤ x) (h2 : x ≤ big) : Fl.rd big x = .fin x := by
  unfold Fl.rd
  rw [if_neg (not_lt.2 h2), if_neg (not_lt.2 h1)]

/-- the value of one coordinate within finite limits -/
theorem coord_value {big R a b r : ℝ} (hR : 0 < R) (ha : -big ≤ a) (hab : a ≤ b) (hb : b ≤ big) (ho : (b - a) * R ≤ big)
    (hd : b - a ≤ big) (hr0 : 0 ≤ r) (hr : r ≤ R) :
    Fl.add big (.fin a) (Fl.divr big (Fl.mulr big (Fl.add big (.fin b) (Fl.neg (.fin a))) r) R) =
        .fin (a + (b - a) * r / R) ∧ a ≤ a + (b - a) * r / R ∧ a + (b - a) * r / R ≤ b := by
  have h0 : 0 ≤ b - a := by linarith
  have hbig : 0 ≤ big := by linarith
  have h1 : 0 ≤ (b - a) * r := mul_nonneg h0 hr0
  have h2 : (b - a) * r ≤ (b - a) * R := mul_le_mul_of_nonneg_left hr h0
  have h3 : 0 ≤ (b - a) * r / R := div_nonneg h1 hR.le
  have h4 : (b - a) * r / R ≤ b - a := by rw [div_le_iff₀ hR]; exact h2
  refine ⟨?_, by linarith, by linarith⟩
  show Fl.add big (.fin a) (Fl.divr big (Fl.mulr big (Fl.rd big (b + -a)) r) R) = _
  rw [rd_of (by linarith) (by linarith)]
  show Fl.add big (.fin a) (Fl.divr big (Fl.rd big ((b + -a) * r)) R) = _
  rw [← sub_eq_add_neg, rd_of (by linarith) (by linarith)]
  show Fl.add big (.fin a) (Fl.rd big ((b - a) * r / R)) = _
  rw [rd_of (by linarith) (by linarith)]
  show Fl.rd big (a + (b - a) * r / R) = _
  rw [rd_of (by linarith) (by linarith)]

/-- with limits at the two ends of the range, the value is never finite -/
theorem coord_overflow {big R r : ℝ} (hbig : 0 < big) :
    ¬ (Fl.add big (.fin (-big)) (Fl.divr big (Fl.mulr big (Fl.add big (.fin big) (Fl.neg (.fin (-big)))) r) R)).Finite := by
  have : Fl.add big (.fin big) (Fl.neg (.fin (-big))) = .pinf := by
    show Fl.rd big (big + - -big) = _
    unfold Fl.rd
    rw [if_pos (by linarith)]
  rw [this]
  unfold Fl.mulr
  dsimp only
  split
  · exact id
  · exact id

section
variable {big R : ℝ} {lo hi : ℕ → Fl} {r : ℕ → ℝ}

theorem vecRandom_spec {n : ℕ} {res x : ℕ → Fl} (h : vecRandom big R lo hi r n res = some x) :
    (∀ i < n, x i = Fl.add big (lo i) (Fl.divr big (Fl.mulr big (Fl.add big (hi i) (lo i).neg) (r i)) R)) ∧
      ∀ i, n ≤ i → x i = res i := by
  induction n generalizing x with
  | zero => rw [vecRandom, Option.some.injEq] at h; subst h; exact ⟨fun i hi => absurd hi (by omega), fun _ _ => rfl⟩
  | succ n ih =>
    rw [vecRandom] at h
    split at h
    · cases h
    rename_i y hy
    split at h
    · cases h
    rw [Option.some.injEq] at h
    subst h
    obtain ⟨i1, i2⟩ := ih hy
    constructor
    · intro i hi
      by_cases e : i = n
      · subst e; simp [upd]
      · rw [upd, Function.update_of_ne e]; exact i1 i (by omega)
    · intro i hi
      rw [upd, Function.update_of_ne (show i ≠ n by omega)]; exact i2 i (by omega)

theorem vecRandom_none {n : ℕ} {res : ℕ → Fl} :
    vecRandom big R lo hi r n res = none ↔ ∃ i < n, lo i = .ninf ∨ hi i = .pinf := by
  have key : ∀ i, ((lo i).isNinf || (hi i).isPinf) = true ↔ (lo i = .ninf ∨ hi i = .pinf) := by
    intro i
    rw [Bool.or_eq_true]
    constructor
    · rintro (h | h)
      · left; cases e : lo i <;> rw [e] at h <;> first | rfl | cases h
      · right; cases e : hi i <;> rw [e] at h <;> first | rfl | cases h
    · rintro (h | h)
      · left; rw [h]; rfl
      · right; rw [h]; rfl
  induction n with
  | zero => simp [vecRandom]
  | succ n ih =>
    rw [vecRandom]
    cases hv : vecRandom big R lo hi r n res with
    | none =>
      obtain ⟨i, hi, h⟩ := ih.1 hv
      simp only [true_iff]
      exact ⟨i, by omega, h⟩
    | some y =>
      dsimp only
      split
      · rename_i hc
        simp only [true_iff]
        exact ⟨n, by omega, (key n).1 hc⟩
      · rename_i hc
        simp only [reduceCtorEq, false_iff]
        rintro ⟨i, hi, h⟩
        rcases Nat.lt_succ_iff_lt_or_eq.1 hi with hi | rfl
        · rw [ih.2 ⟨i, hi, h⟩] at hv; cases hv
        · exact hc ((key i).2 h)

theorem random_none (g : LG) : g.random big R lo hi r = none ↔ ∃ i < g.bounded, lo i = .ninf ∨ hi i = .pinf := by
  cases g with
  | vec n => exact vecRandom_none
  | so2 => simp [LG.random, LG.bounded]
  | so3 => simp [LG.random, LG.bounded]
  | se2 => rw [LG.random, Option.map_eq_none_iff]; exact vecRandom_none
  | se3 => rw [LG.random, Option.map_eq_none_iff]; exact vecRandom_none

/-- the coordinates with limits -/
theorem random_bounded {g : LG} {x : ℕ → Fl} (h : g.random big R lo hi r = some x) {i : ℕ} (hi' : i < g.bounded) :
    x i = Fl.add big (lo i) (Fl.divr big (Fl.mulr big (Fl.add big (hi i) (lo i).neg) (r i)) R) := by
  cases g with
  | vec n => exact (vecRandom_spec h).1 i hi'
  | so2 => exact absurd hi' (by simp [LG.bounded])
  | so3 => exact absurd hi' (by simp [LG.bounded])
  | se2 =>
    rw [LG.random, Option.map_eq_some_iff] at h
    obtain ⟨y, hy, rfl⟩ := h
    have hi' : i < 2 := hi'
    simp only [if_pos hi']
    exact (vecRandom_spec hy).1 i hi'
  | se3 =>
    rw [LG.random, Option.map_eq_some_iff] at h
    obtain ⟨y, hy, rfl⟩ := h
    have hi' : i < 3 := hi'
    simp only [if_pos hi']
    exact (vecRandom_spec hy).1 i hi'

theorem so2Random_unit (R r : ℝ) : (so2Random R r).1 * (so2Random R r).1 + (so2Random R r).2 * (so2Random R r).2 = 1 := by
  unfold so2Random
  nlinarith [cos_sq_add_sin_sq (-π + 2 * π * r / R)]

theorem uniformRandom_unit {R r1 : ℝ} (r2 r3 : ℝ) (hR : 0 < R) (h0 : 0 ≤ r1) (h1 : r1 ≤ R) :
    (uniformRandom R r1 r2 r3).sqNorm = 1 := by
  unfold uniformRandom Quat.sqNorm
  dsimp only
  have hu : 0 ≤ r1 / R := div_nonneg h0 hR.le
  have hu' : 0 ≤ 1 - r1 / R := by rw [sub_nonneg, div_le_one hR]; exact h1
  have e1 := mul_self_sqrt hu
  have e2 := mul_self_sqrt hu'
  have c2 := cos_sq_add_sin_sq (2 * π * (r2 / R))
  have c3 := cos_sq_add_sin_sq (2 * π * (r3 / R))
  generalize sqrt (r1 / R) = s at *
  generalize sqrt (1 - r1 / R) = t at *
  generalize cos (2 * π * (r2 / R)) = a at *
  generalize sin (2 * π * (r2 / R)) = b at *
  generalize cos (2 * π * (r3 / R)) = c at *
  generalize sin (2 * π * (r3 / R)) = d at *
  calc t * a * (t * a) + s * d * (s * d) + s * c * (s * c) + t * b * (t * b)
      = t * t * (a ^ 2 + b ^ 2) + s * s * (c ^ 2 + d ^ 2) := by ring
    _ = 1 := by rw [c2, c3, e1, e2]; ring

/-- polar coordinates, the angle being a fraction of a turn -/
theorem polar (a b : ℝ) : ∃ u, 0 ≤ u ∧ u ≤ 1 ∧ sqrt (a ^ 2 + b ^ 2) * cos (2 * π * u) = a ∧ sqrt (a ^ 2 + b ^ 2) * sin (2 * π * u) = b := by
  have hn : ‖(⟨a, b⟩ : ℂ)‖ = sqrt (a ^ 2 + b ^ 2) := Complex.norm_eq_sqrt_sq_add_sq _
  have hc := Complex.norm_mul_cos_arg (⟨a, b⟩ : ℂ)
  have hs := Complex.norm_mul_sin_arg (⟨a, b⟩ : ℂ)
  rw [hn] at hc hs
  have h1 := Complex.neg_pi_lt_arg (⟨a, b⟩ : ℂ)
  have h2 := Complex.arg_le_pi (⟨a, b⟩ : ℂ)
  generalize Complex.arg (⟨a, b⟩ : ℂ) = t at *
  have hp := pi_pos
  rcases le_or_gt 0 t with h | h
  · refine ⟨t / (2 * π), by positivity, by rw [div_le_one (by positivity)]; linarith, ?_⟩
    rw [mul_div_cancel₀ _ (by positivity)]
    exact ⟨hc, hs⟩
  · refine ⟨t / (2 * π) + 1, ?_, ?_, ?_⟩
    · rw [← neg_le_iff_add_nonneg, le_div_iff₀ (by positivity)]; linarith
    · have : t / (2 * π) ≤ 0 := div_nonpos_of_nonpos_of_nonneg h.le (by positivity)
      linarith
    · rw [mul_add, mul_div_cancel₀ _ (by positivity), mul_one, cos_add_two_pi, sin_add_two_pi]
      exact ⟨hc, hs⟩

theorem so2Random_reaches {R c s : ℝ} (hR : 0 < R) (h : c * c + s * s = 1) :
    ∃ r, 0 ≤ r ∧ r ≤ R ∧ (so2Random R r).1 = c ∧ (so2Random R r).2 = s := by
  obtain ⟨u, h0, h1, e1, e2⟩ := polar (-c) (-s)
  have e : (-c) ^ 2 + (-s) ^ 2 = 1 := by linarith [h]
  rw [e, sqrt_one, one_mul] at e1 e2
  refine ⟨u * R, by positivity, by nlinarith, ?_, ?_⟩
  all_goals
    unfold so2Random
    dsimp only
    rw [← mul_assoc, mul_div_assoc, div_self hR.ne', mul_one]
  · rw [show -π + 2 * π * u = 2 * π * u - π by ring, cos_sub_pi, e1, neg_neg]
  · rw [show -π + 2 * π * u = 2 * π * u - π by ring, sin_sub_pi, e2, neg_neg]

theorem uniformRandom_reaches {R : ℝ} (hR : 0 < R) {q : Quat ℝ} (h : q.sqNorm = 1) :
    ∃ r1 r2 r3, (0 ≤ r1 ∧ r1 ≤ R) ∧ (0 ≤ r2 ∧ r2 ≤ R) ∧ (0 ≤ r3 ∧ r3 ≤ R) ∧ uniformRandom R r1 r2 r3 = q := by
  obtain ⟨u2, a0, a1, e1, e2⟩ := polar q.x q.w
  obtain ⟨u3, b0, b1, f1, f2⟩ := polar q.z q.y
  unfold Quat.sqNorm at h
  have hz := sq_nonneg q.z
  have hy := sq_nonneg q.y
  have hx := sq_nonneg q.x
  have hw := sq_nonneg q.w
  refine ⟨(q.z ^ 2 + q.y ^ 2) * R, u2 * R, u3 * R, ⟨by positivity, by nlinarith⟩, ⟨by positivity, by nlinarith⟩,
    ⟨by positivity, by nlinarith⟩, ?_⟩
  unfold uniformRandom
  dsimp only
  rw [mul_div_assoc, mul_div_assoc, mul_div_assoc, div_self hR.ne', mul_one, mul_one, mul_one,
    show 1 - (q.z ^ 2 + q.y ^ 2) = q.x ^ 2 + q.w ^ 2 by linarith, e1, e2, f1, f2]

theorem vecRandom_congr {r' : ℕ → ℝ} {n : ℕ} (h : ∀ j < n, r j = r' j) (res : ℕ → Fl) :
    vecRandom big R lo hi r n res = vecRandom big R lo hi r' n res := by
  induction n with
  | zero => rfl
  | succ n ih => rw [vecRandom, vecRandom, ih fun j hj => h j (by omega), h n (by omega)]

theorem random_congr {r' : ℕ → ℝ} (g : LG) (h : ∀ j < g.draws, r j = r' j) :
    g.random big R lo hi r = g.random big R lo hi r' := by
  cases g with
  | vec n => exact vecRandom_congr h _
  | so2 => simp only [LG.random, h 0 (by simp [LG.draws])]
  | so3 => simp only [LG.random, h 0 (by simp [LG.draws]), h 1 (by simp [LG.draws]), h 2 (by simp [LG.draws])]
  | se2 =>
    simp only [LG.random, h 2 (by simp [LG.draws])]
    rw [vecRandom_congr fun j hj => h j (by simp only [LG.draws]; omega)]
  | se3 =>
    simp only [LG.random, h 3 (by simp [LG.draws]), h 4 (by simp [LG.draws]), h 5 (by simp [LG.draws])]
    rw [vecRandom_congr fun j hj => h j (by simp only [LG.draws]; omega)]

theorem randomSlots_spec {l : List Slot} {a b : ℕ} (hl : Tiles Slot.iq (fun s => s.g.nq) a l b) {out o : ℕ → Fl} {t t' : ℕ}
    (h : randomSlots big R lo hi r l out t = some (o, t')) :
    (∀ s ∈ l, ∃ (u : ℕ) (x : ℕ → Fl),
      s.g.random big R (fun k => lo (s.iq + k)) (fun k => hi (s.iq + k)) (fun j => r (u + j)) = some x ∧
      ∀ k < s.g.nq, o (s.iq + k) = x k) ∧
    (∀ k, k < a ∨ b ≤ k → o k = out k) ∧ t' = t + (l.map fun s => s.g.draws).sum := by
  induction l generalizing a out t with
  | nil =>
    rw [randomSlots, Option.some.injEq, Prod.mk.injEq] at h
    refine ⟨fun s hs => (by cases hs), fun k _ => by rw [h.1], by simp [h.2]⟩
  | cons s l ih =>
    obtain ⟨h1, h2⟩ := hl
    rw [randomSlots] at h
    split at h
    · cases h
    rename_i x hx
    obtain ⟨i1, i2, i3⟩ := ih h2 h
    have hle := h2.le
    dsimp only at hle i2
    refine ⟨?_, ?_, by rw [i3, List.map_cons, List.sum_cons]; omega⟩
    · intro s' hs'
      rcases List.mem_cons.1 hs' with rfl | hs'
      · refine ⟨t, x, hx, fun k hk => ?_⟩
        rw [i2 _ (Or.inl (by omega))]
        simp only [writeF]
        rw [if_pos (by omega)]; congr 1; omega
      · exact i1 s' hs'
    · intro k hk
      rw [i2 k (by omega)]
      simp only [writeF]
      rw [if_neg (by omega)]

theorem randomSlots_none (l : List Slot) (out : ℕ → Fl) (t : ℕ) : randomSlots big R lo hi r l out t = none ↔
    ∃ s ∈ l, ∃ i < s.g.bounded, lo (s.iq + i) = .ninf ∨ hi (s.iq + i) = .pinf := by
  induction l generalizing out t with
  | nil => simp [randomSlots]
  | cons s l ih =>
    rw [randomSlots]
    have hn := random_none (big := big) (R := R) (lo := fun k => lo (s.iq + k)) (hi := fun k => hi (s.iq + k))
      (r := fun j => r (t + j)) s.g
    cases hx : s.g.random big R (fun k => lo (s.iq + k)) (fun k => hi (s.iq + k)) (fun j => r (t + j)) with
    | none => simp only [true_iff]; exact ⟨s, List.mem_cons_self, hn.1 hx⟩
    | some x =>
      dsimp only
      rw [ih]
      constructor
      · rintro ⟨s', hs', h⟩; exact ⟨s', List.mem_cons_of_mem _ hs', h⟩
      · rintro ⟨s', hs', h⟩
        rcases List.mem_cons.1 hs' with rfl | hs'
        · rw [hn.2 h] at hx; cases hx
        · exact ⟨s', hs', h⟩

theorem randomSlots_congr {r' : ℕ → ℝ} (l : List Slot) (out : ℕ → Fl) (t : ℕ) (h : ∀ j, t ≤ j → r j = r' j) :
    randomSlots big R lo hi r l out t = randomSlots big R lo hi r' l out t := by
  induction l generalizing out t with
  | nil => rfl
  | cons s l ih =>
    rw [randomSlots, randomSlots, random_congr (r' := fun j => r' (t + j)) s.g fun j _ => h _ (by omega)]
    split
    · rfl
    · exact ih _ _ fun j hj => h j (by omega)

end

end Pin.Lie
