import Verif.LieGroup.PlaneLemmas
import Verif.LieGroup.SpaceLemmas
import Verif.LieGroup.SlotLemmas
import Mathlib.Algebra.BigOperators.Field

/-! # The operations of the groups on segments, and of the model on its joints -/

namespace Pin
namespace Lie
open Real

variable {ε : ℝ}

/-- the same segment of length `n` -/
def Same (n : ℕ) (x y : ℕ → ℝ) : Prop := ∀ k, k < n → x k = y k

theorem vecAt_congr {n i : ℕ} {x y : ℕ → ℝ} (h : Same n x y) (hi : i + 3 ≤ n) : vecAt x i = vecAt y i := by
  unfold vecAt
  rw [h i (by omega), h (i + 1) (by omega), h (i + 2) (by omega)]

theorem quatAt_congr {n i : ℕ} {x y : ℕ → ℝ} (h : Same n x y) (hi : i + 4 ≤ n) : quatAt x i = quatAt y i := by
  unfold quatAt
  rw [h i (by omega), h (i + 1) (by omega), h (i + 2) (by omega), h (i + 3) (by omega)]

theorem so2Int_congr {x y : ℕ → ℝ} (h : Same 2 x y) (v : ℝ) : so2Int x v = so2Int y v := by
  unfold so2Int; rw [h 0 (by omega), h 1 (by omega)]

theorem so2Diff_congr {x y x' y' : ℕ → ℝ} (h : Same 2 x x') (h' : Same 2 y y') : so2Diff x y = so2Diff x' y' := by
  unfold so2Diff; rw [h 0 (by omega), h 1 (by omega), h' 0 (by omega), h' 1 (by omega)]

theorem se2Exp_congr {v v' : ℕ → ℝ} (h : Same 3 v v') : se2Exp v = se2Exp v' := by
  unfold se2Exp; rw [h 0 (by omega), h 1 (by omega), h 2 (by omega)]

theorem se2Int_congr {q q' v v' : ℕ → ℝ} (h : Same 4 q q') (h' : Same 3 v v') : se2Int q v = se2Int q' v' := by
  unfold se2Int
  rw [h 0 (by omega), h 1 (by omega), h 2 (by omega), h 3 (by omega), se2Exp_congr h']

theorem se2Diff_congr {x y x' y' : ℕ → ℝ} (h : Same 4 x x') (h' : Same 4 y y') : se2Diff x y = se2Diff x' y' := by
  unfold se2Diff
  rw [h 0 (by omega), h 1 (by omega), h 2 (by omega), h 3 (by omega),
    h' 0 (by omega), h' 1 (by omega), h' 2 (by omega), h' 3 (by omega)]

theorem LG.integrate_congr (g : LG) {q q' v v' : ℕ → ℝ} (h : Same g.nq q q') (h' : Same g.nv v v') :
    Same g.nq (g.integrate ε q v) (g.integrate ε q' v') := by
  intro k hk
  cases g with
  | vec n => simp only [LG.integrate]; rw [h k hk, h' k hk]
  | so2 => simp only [LG.integrate]; rw [so2Int_congr h, h' 0 (by simp [LG.nv])]
  | so3 => simp only [LG.integrate]; rw [quatAt_congr h (by simp [LG.nq]), vecAt_congr h' (by simp [LG.nv])]
  | se2 => simp only [LG.integrate]; rw [se2Int_congr h h']
  | se3 =>
    simp only [LG.integrate]
    rw [vecAt_congr h (by simp [LG.nq]), quatAt_congr h (by simp [LG.nq]), vecAt_congr h' (by simp [LG.nv]),
      vecAt_congr h' (by simp [LG.nv])]

theorem LG.difference_congr (g : LG) {q q' v v' : ℕ → ℝ} (h : Same g.nq q q') (h' : Same g.nq v v') :
    Same g.nv (g.difference ε q v) (g.difference ε q' v') := by
  intro k hk
  cases g with
  | vec n => simp only [LG.difference]; rw [h k hk, h' k hk]
  | so2 => simp only [LG.difference]; rw [so2Diff_congr h h']
  | so3 => simp only [LG.difference]; rw [quatAt_congr h (by simp [LG.nq]), quatAt_congr h' (by simp [LG.nq])]
  | se2 => simp only [LG.difference]; rw [se2Diff_congr h h']
  | se3 =>
    simp only [LG.difference]
    rw [vecAt_congr h (by simp [LG.nq]), quatAt_congr h (by simp [LG.nq]), vecAt_congr h' (by simp [LG.nq]),
      quatAt_congr h' (by simp [LG.nq])]

theorem sqn_congr {n i l : ℕ} {x y : ℕ → ℝ} (h : Same n x y) (hi : i + l ≤ n) : LG.sqn x i l = LG.sqn y i l := by
  unfold LG.sqn
  refine Finset.sum_congr rfl fun k hk => ?_
  rw [Finset.mem_range] at hk
  rw [h _ (by omega)]

theorem unitPart_le (g : LG) : g.unitPart.1 + g.unitPart.2 ≤ g.nq := by
  cases g <;> simp [LG.unitPart, LG.nq]

theorem eigenNormalize_congr {n i l : ℕ} {x y : ℕ → ℝ} (h : Same n x y) (hi : i + l ≤ n) :
    Same n (LG.eigenNormalize x i l) (LG.eigenNormalize y i l) := by
  intro k hk
  unfold LG.eigenNormalize
  rw [sqn_congr h hi, h k hk]

theorem LG.normalize_congr (g : LG) {q q' : ℕ → ℝ} (h : Same g.nq q q') :
    Same g.nq (g.normalize q) (g.normalize q') := by
  cases g with
  | vec n => exact h
  | so2 => exact eigenNormalize_congr h (unitPart_le _)
  | so3 => exact eigenNormalize_congr h (unitPart_le _)
  | se2 => exact eigenNormalize_congr h (unitPart_le _)
  | se3 => exact eigenNormalize_congr h (unitPart_le _)

/-! ## unit norms -/

theorem sqn_so2 (q : ℕ → ℝ) : LG.sqn q 0 2 = q 0 * q 0 + q 1 * q 1 := by
  simp [LG.sqn, Finset.sum_range_succ]

theorem sqn_se2 (q : ℕ → ℝ) : LG.sqn q 2 2 = q 2 * q 2 + q 3 * q 3 := by
  simp [LG.sqn, Finset.sum_range_succ]

theorem sqn_so3 (q : ℕ → ℝ) : LG.sqn q 0 4 = (quatAt q 0).sqNorm := by
  simp [LG.sqn, Finset.sum_range_succ, quatAt, Quat.sqNorm]

theorem sqn_se3 (q : ℕ → ℝ) : LG.sqn q 3 4 = (quatAt q 3).sqNorm := by
  simp [LG.sqn, Finset.sum_range_succ, quatAt, Quat.sqNorm]

theorem quatAt_qcoef (q : Quat ℝ) : quatAt (qcoef q) 0 = q := by
  ext <;> simp [quatAt, qcoef]

theorem qcoef_quatAt (q : ℕ → ℝ) {i k : ℕ} (hk : k < 4) : qcoef (quatAt q i) k = q (i + k) := by
  interval_cases k <;> simp [quatAt, qcoef]

theorem vcoef_vecAt (q : ℕ → ℝ) {i k : ℕ} (hk : k < 3) : vcoef (vecAt q i) k = q (i + k) := by
  interval_cases k <;> simp [vecAt, vcoef]

theorem vecAt_zero {v : ℕ → ℝ} {n i : ℕ} (h : ∀ k, k < n → v k = 0) (hi : i + 3 ≤ n) : vecAt v i = 0 := by
  unfold vecAt
  rw [h _ (by omega), h _ (by omega), h _ (by omega)]
  rfl

theorem vcoef_zero (k : ℕ) : vcoef 0 k = 0 := by
  unfold vcoef
  split
  · rfl
  split <;> rfl

/-- the unit-norm part of a segment has norm 1 -/
def LG.Unit (g : LG) (q : ℕ → ℝ) : Prop := match g with
  | .vec _ => True
  | g => LG.sqn q g.unitPart.1 g.unitPart.2 = 1

theorem LG.integrate_zero (he : 0 < ε) (g : LG) {q v : ℕ → ℝ} (hu : g.Unit q) (hv : ∀ k, k < g.nv → v k = 0) :
    Same g.nq (g.integrate ε q v) q := by
  intro k hk
  cases g with
  | vec n => simp only [LG.integrate]; rw [hv k hk, add_zero]
  | so2 =>
    have hu : LG.sqn q 0 2 = 1 := hu
    rw [sqn_so2] at hu
    simp only [LG.integrate, hv 0 (by simp [LG.nv]), so2Int_unit hu]
    have hk : k < 2 := hk
    interval_cases k <;> simp
  | so3 =>
    have hu : LG.sqn q 0 4 = 1 := hu
    rw [sqn_so3] at hu
    simp only [LG.integrate]
    rw [vecAt_zero hv (by simp [LG.nv]), so3Int_zero he hu, qcoef_quatAt q hk, Nat.zero_add]
  | se2 =>
    simp only [LG.integrate]
    have hk : k < 4 := hk
    have h0 := hv 0 (by simp [LG.nv])
    have h1 := hv 1 (by simp [LG.nv])
    have h2 := hv 2 (by simp [LG.nv])
    interval_cases k <;> simp [se2Int, se2Exp, h0, h1, h2]
  | se3 =>
    have hu : LG.sqn q 3 4 = 1 := hu
    rw [sqn_se3] at hu
    simp only [LG.integrate]
    rw [vecAt_zero hv (by simp [LG.nv]), vecAt_zero hv (by simp [LG.nv]), se3Int_zero he _ hu]
    have hk : k < 7 := hk
    split
    · rename_i h3; rw [vcoef_vecAt q h3, Nat.zero_add]
    · dsimp only
      rw [qcoef_quatAt q (by omega)]; congr 1; omega

theorem LG.difference_self (g : LG) {q : ℕ → ℝ} (hu : g.Unit q) {k : ℕ} (hk : k < g.nv) :
    g.difference ε q q k = 0 := by
  cases g with
  | vec n => simp only [LG.difference]; ring
  | so2 =>
    have hu : LG.sqn q 0 2 = 1 := hu
    rw [sqn_so2] at hu
    simp only [LG.difference]
    exact so2_diff_int hu (v := 0) ⟨by linarith [pi_pos], pi_pos.le⟩ (by rw [so2Int_unit hu]; simp)
      (by rw [so2Int_unit hu]; simp)
  | so3 =>
    have hu : LG.sqn q 0 4 = 1 := hu
    rw [sqn_so3] at hu
    simp only [LG.difference]
    rw [so3Diff_self ε hu, vcoef_zero]
  | se2 =>
    have hu : LG.sqn q 2 2 = 1 := hu
    rw [sqn_se2] at hu
    simp only [LG.difference]
    rw [se2_diff_int (v := fun _ => 0) hu ⟨by linarith [pi_pos], pi_pos.le⟩ (.inl rfl) ?_ hk]
    intro j hj
    interval_cases j <;> simp [se2Int, se2Exp]
  | se3 =>
    have hu : LG.sqn q 3 4 = 1 := hu
    rw [sqn_se3] at hu
    simp only [LG.difference]
    rw [se3Diff_self ε _ hu]
    split <;> exact vcoef_zero _

theorem LG.neutral_unit (g : LG) : g.Unit g.neutral := by
  cases g with
  | vec n => trivial
  | so2 => show LG.sqn _ 0 2 = 1; rw [sqn_so2]; simp [LG.neutral]
  | so3 => show LG.sqn _ 0 4 = 1; simp [LG.sqn, LG.neutral]
  | se2 => show LG.sqn _ 2 2 = 1; rw [sqn_se2]; simp [LG.neutral]
  | se3 => show LG.sqn _ 3 4 = 1; simp [LG.sqn, LG.neutral, Finset.sum_range_succ]

theorem sqn_nonneg (q : ℕ → ℝ) (i n : ℕ) : 0 ≤ LG.sqn q i n :=
  Finset.sum_nonneg fun _ _ => mul_self_nonneg _

theorem sqn_eigenNormalize {q : ℕ → ℝ} {i n : ℕ} (h : 0 < LG.sqn q i n) :
    LG.sqn (LG.eigenNormalize q i n) i n = 1 := by
  have hs := mul_self_sqrt h.le
  have hsp := sqrt_pos.2 h
  have : LG.sqn (LG.eigenNormalize q i n) i n = LG.sqn q i n / (sqrt (LG.sqn q i n) * sqrt (LG.sqn q i n)) := by
    rw [LG.sqn, LG.sqn, Finset.sum_div]
    refine Finset.sum_congr rfl fun k hk => ?_
    rw [Finset.mem_range] at hk
    unfold LG.eigenNormalize
    rw [if_pos (by omega), if_pos (by simpa [LG.sqn] using h)]
    rw [div_mul_div_comm]
    rfl
  rw [this, hs, div_self h.ne']

/-- the pair of configurations is admissible for the exact round trips: unit, and for SE(2) an angle that is
zero or at least `1e-4` -/
def LG.Pair (g : LG) (q0 q1 : ℕ → ℝ) : Prop := match g with
  | .vec _ => True
  | .so2 => LG.Unit .so2 q0 ∧ LG.Unit .so2 q1
  | .se2 => LG.Unit .se2 q0 ∧ LG.Unit .se2 q1 ∧ (se2Angle q0 q1 = 0 ∨ 1 / 10 ^ 4 ≤ |se2Angle q0 q1|)
  | _ => False

theorem LG.int_diff (g : LG) {q0 q1 : ℕ → ℝ} (h : g.Pair q0 q1) :
    Same g.nq (g.integrate ε q0 (g.difference ε q0 q1)) q1 := by
  intro k hk
  cases g with
  | vec n => simp only [LG.integrate, LG.difference]; ring
  | so2 =>
    obtain ⟨h0, h1⟩ := h
    have h0 : LG.sqn q0 0 2 = 1 := h0
    have h1 : LG.sqn q1 0 2 = 1 := h1
    rw [sqn_so2] at h0 h1
    simp only [LG.integrate, LG.difference]
    rw [so2_int_diff h0 h1]
    have hk : k < 2 := hk
    interval_cases k <;> simp
  | se2 =>
    obtain ⟨h0, h1, ht⟩ := h
    have h0 : LG.sqn q0 2 2 = 1 := h0
    have h1 : LG.sqn q1 2 2 = 1 := h1
    rw [sqn_se2] at h0 h1
    simp only [LG.integrate, LG.difference]
    exact se2_int_diff h0 h1 ht hk
  | so3 => exact absurd h id
  | se3 => exact absurd h id

/-- the velocity is admissible for the exact round trip -/
def LG.Vel (g : LG) (v : ℕ → ℝ) : Prop := match g with
  | .vec _ => True
  | .so2 => -π < v 0 ∧ v 0 ≤ π
  | .se2 => (-π < v 2 ∧ v 2 ≤ π) ∧ (v 2 = 0 ∨ 1 / 10 ^ 4 ≤ |v 2|)
  | _ => False

theorem LG.diff_int (g : LG) {q v : ℕ → ℝ} (h : g.Unit q) (hv : g.Vel v) :
    Same g.nv (g.difference ε q (g.integrate ε q v)) v := by
  intro k hk
  cases g with
  | vec n => simp only [LG.integrate, LG.difference]; ring
  | so2 =>
    have h : LG.sqn q 0 2 = 1 := h
    rw [sqn_so2] at h
    have hk : k < 1 := hk
    have hk : k = 0 := by omega
    subst hk
    simp only [LG.integrate, LG.difference]
    exact so2_diff_int h hv (by simp) (by simp)
  | se2 =>
    have h : LG.sqn q 2 2 = 1 := h
    rw [sqn_se2] at h
    simp only [LG.integrate, LG.difference]
    exact se2_diff_int h hv.1 hv.2 (fun _ _ => rfl) hk
  | so3 => exact absurd hv id
  | se3 => exact absurd hv id

/-! ## norm errors after one step -/

/-- the unit-norm error of a segment -/
noncomputable def LG.err (g : LG) (q : ℕ → ℝ) : ℝ := |LG.sqn q g.unitPart.1 g.unitPart.2 - 1|

theorem LG.err_congr (g : LG) {q q' : ℕ → ℝ} (h : Same g.nq q q') : g.err q = g.err q' := by
  unfold LG.err; rw [sqn_congr h (unitPart_le g)]

theorem err_so2 (q v : ℕ → ℝ) (h : LG.err .so2 q ≤ 1 / 2) :
    LG.err .so2 (LG.integrate ε .so2 q v) ≤ LG.err .so2 q ^ 2 := by
  unfold LG.err at *
  simp only [LG.unitPart] at *
  simp only [sqn_so2] at *
  simp only [LG.integrate, if_true, if_neg (show (1 : ℕ) ≠ 0 by omega)]
  rw [so2Int_norm]
  generalize q 0 * q 0 + q 1 * q 1 = N at *
  have : N * ((3 - N) / 2) ^ 2 - 1 = -(N - 1) ^ 2 * (3 - (N - 1)) / 4 := by ring
  rw [this, sq_abs]
  exact contract (by linarith)

theorem err_se2 (q v : ℕ → ℝ) : LG.err .se2 (LG.integrate ε .se2 q v) = LG.err .se2 q := by
  unfold LG.err
  simp only [LG.unitPart]
  rw [sqn_se2, sqn_se2]
  simp only [LG.integrate]
  rw [se2Int_norm]

theorem err_so3 (he : 0 < ε) (he2 : ε ≤ 1 / 2 ^ 20) (q v : ℕ → ℝ) (h : LG.err .so3 q ≤ 1 / 2) :
    LG.err .so3 (LG.integrate ε .so3 q v) ≤ (LG.err .so3 q + 3 / 2 * expErr ε) ^ 2 := by
  unfold LG.err at *
  simp only [LG.unitPart] at *
  rw [sqn_so3] at *
  simp only [LG.integrate]
  rw [sqn_so3, quatAt_qcoef]
  exact so3Int_step he he2 h _

theorem err_se3 (he : 0 < ε) (he2 : ε ≤ 1 / 2 ^ 20) (q v : ℕ → ℝ) (h : LG.err .se3 q ≤ 1 / 2) :
    LG.err .se3 (LG.integrate ε .se3 q v) ≤ (LG.err .se3 q + 3 / 2 * expErr ε) ^ 2 := by
  unfold LG.err at *
  simp only [LG.unitPart] at *
  rw [sqn_se3] at *
  simp only [LG.integrate]
  rw [sqn_se3]
  have : quatAt (fun k => if k < 3 then vcoef (se3Int ε (vecAt q 0) (quatAt q 3) (vecAt v 0) (vecAt v 3)).1 k
      else qcoef (se3Int ε (vecAt q 0) (quatAt q 3) (vecAt v 0) (vecAt v 3)).2 (k - 3)) 3 =
      (se3Int ε (vecAt q 0) (quatAt q 3) (vecAt v 0) (vecAt v 3)).2 := by
    ext <;> simp [quatAt, qcoef]
  rw [this]
  exact se3Int_step he he2 _ h _ _

/-! ## model level -/

variable {m : Model ℝ LJ}

theorem integrate_spec (h : Model.Inv m) (hp : PayloadOk m) (q v out : ℕ → ℝ) :
    (∀ s ∈ slotsOf m, Same s.g.nq (seg (integrate ε m q v out) s.iq)
      (s.g.integrate ε (seg q s.iq) (seg v s.iv))) ∧
    ∀ k, m.nq ≤ k → integrate ε m q v out k = out k := by
  have := fold_write (f := fun s _ => s.g.integrate ε (seg q s.iq) (seg v s.iv)) (fun _ _ _ _ _ _ => rfl)
    (slotsOf_tiles h hp).1 out
  exact ⟨fun s hs k hk => this.1 s hs k hk, fun k hk => this.2 k (.inr hk)⟩

theorem difference_spec (h : Model.Inv m) (hp : PayloadOk m) (q0 q1 out : ℕ → ℝ) :
    (∀ s ∈ slotsOf m, Same s.g.nv (seg (difference ε m q0 q1 out) s.iv)
      (s.g.difference ε (seg q0 s.iq) (seg q1 s.iq))) ∧
    ∀ k, m.nv ≤ k → difference ε m q0 q1 out k = out k := by
  have := fold_write (f := fun s _ => s.g.difference ε (seg q0 s.iq) (seg q1 s.iq)) (fun _ _ _ _ _ _ => rfl)
    (slotsOf_tiles h hp).2 out
  exact ⟨fun s hs k hk => this.1 s hs k hk, fun k hk => this.2 k (.inr hk)⟩

theorem interpolate_spec (h : Model.Inv m) (hp : PayloadOk m) (q0 q1 : ℕ → ℝ) (u : ℝ) (out : ℕ → ℝ) :
    (∀ s ∈ slotsOf m, Same s.g.nq (seg (interpolate ε m q0 q1 u out) s.iq)
      (s.g.interpolate ε (seg q0 s.iq) (seg q1 s.iq) u)) ∧
    ∀ k, m.nq ≤ k → interpolate ε m q0 q1 u out k = out k := by
  have := fold_write (f := fun s _ => s.g.interpolate ε (seg q0 s.iq) (seg q1 s.iq) u) (fun _ _ _ _ _ _ => rfl)
    (slotsOf_tiles h hp).1 out
  exact ⟨fun s hs k hk => this.1 s hs k hk, fun k hk => this.2 k (.inr hk)⟩

theorem neutral_spec (h : Model.Inv m) (hp : PayloadOk m) (out : ℕ → ℝ) :
    (∀ s ∈ slotsOf m, Same s.g.nq (seg (neutral m out) s.iq) s.g.neutral) ∧
    ∀ k, m.nq ≤ k → neutral m out k = out k := by
  have := fold_write (f := fun s _ => s.g.neutral) (fun _ _ _ _ _ _ => rfl) (slotsOf_tiles h hp).1 out
  exact ⟨fun s hs k hk => this.1 s hs k hk, fun k hk => this.2 k (.inr hk)⟩

theorem normalize_spec (h : Model.Inv m) (hp : PayloadOk m) (q : ℕ → ℝ) :
    (∀ s ∈ slotsOf m, Same s.g.nq (seg (normalize m q) s.iq) (s.g.normalize (seg q s.iq))) ∧
    ∀ k, m.nq ≤ k → normalize m q k = q k := by
  have := fold_write (f := fun s o => s.g.normalize (seg o s.iq))
    (fun s x y hxy k hk => s.g.normalize_congr hxy k hk) (slotsOf_tiles h hp).1 q
  exact ⟨fun s hs k hk => this.1 s hs k hk, fun k hk => this.2 k (.inr hk)⟩

/-- what holds on every segment holds on the whole configuration vector -/
theorem all_q (h : Model.Inv m) (hp : PayloadOk m) {x y : ℕ → ℝ}
    (hs : ∀ s ∈ slotsOf m, Same s.g.nq (seg x s.iq) (seg y s.iq)) : Same m.nq x y := by
  intro k hk
  obtain ⟨i, ⟨s, hi, h1, h2⟩, -⟩ := (slotsOf_tiles h hp).1.cover (Nat.zero_le k) hk
  have := hs s (List.mem_of_getElem? hi) (k - s.iq) (by omega)
  simp only [seg] at this
  rwa [Nat.add_sub_cancel' h1] at this

/-- what holds on every segment holds on the whole velocity vector -/
theorem all_v (h : Model.Inv m) (hp : PayloadOk m) {x y : ℕ → ℝ}
    (hs : ∀ s ∈ slotsOf m, Same s.g.nv (seg x s.iv) (seg y s.iv)) : Same m.nv x y := by
  intro k hk
  obtain ⟨i, ⟨s, hi, h1, h2⟩, -⟩ := (slotsOf_tiles h hp).2.cover (Nat.zero_le k) hk
  have := hs s (List.mem_of_getElem? hi) (k - s.iv) (by omega)
  simp only [seg] at this
  rwa [Nat.add_sub_cancel' h1] at this

theorem slot_range (h : Model.Inv m) (hp : PayloadOk m) {s : Slot} (hs : s ∈ slotsOf m) :
    s.iq + s.g.nq ≤ m.nq ∧ s.iv + s.g.nv ≤ m.nv :=
  ⟨((slotsOf_tiles h hp).1.mem hs).2, ((slotsOf_tiles h hp).2.mem hs).2⟩

theorem Same.trans {n : ℕ} {x y z : ℕ → ℝ} (h : Same n x y) (h' : Same n y z) : Same n x z :=
  fun k hk => (h k hk).trans (h' k hk)

theorem Same.symm {n : ℕ} {x y : ℕ → ℝ} (h : Same n x y) : Same n y x := fun k hk => (h k hk).symm

theorem Same.rfl {n : ℕ} {x : ℕ → ℝ} : Same n x x := fun _ _ => _root_.rfl

/-! ## squared distances -/

theorem sqDist_fold (q0 q1 : ℕ → ℝ) (i : ℕ) (l : List Slot) (out : ℕ → ℝ) (k : ℕ) :
    l.foldl (sqDistStep ε i q0 q1) out k =
      out k + if k = i then (l.map fun s => s.g.sqDist ε (seg q0 s.iq) (seg q1 s.iq)).sum else 0 := by
  induction l generalizing out with
  | nil => simp
  | cons s l ih =>
    rw [List.foldl_cons, ih, List.map_cons, List.sum_cons]
    unfold sqDistStep
    split
    · ring
    · ring

theorem sqDist_outer (q0 q1 : ℕ → ℝ) (L : List (JEntry LJ)) (n : ℕ) (out : ℕ → ℝ) (k : ℕ) :
    (L.zipIdx n).foldl (fun out ei =>
      (ei.1.desc.payload.slots ei.1.idx_q ei.1.idx_v).foldl (sqDistStep ε ei.2 q0 q1) out) out k =
    out k + if n ≤ k then ((L[k - n]?).elim 0 fun e =>
      ((e.desc.payload.slots e.idx_q e.idx_v).map fun s => s.g.sqDist ε (seg q0 s.iq) (seg q1 s.iq)).sum)
      else 0 := by
  induction L generalizing n out with
  | nil => simp
  | cons e L ih =>
    rw [List.zipIdx_cons, List.foldl_cons, ih, sqDist_fold]
    by_cases h1 : k = n
    · subst h1
      simp
    · by_cases h2 : n + 1 ≤ k
      · rw [if_pos h2, if_neg h1, if_pos (by omega)]
        obtain ⟨j, hj⟩ : ∃ j, k - n = j + 1 := ⟨k - n - 1, by omega⟩
        have : k - (n + 1) = j := by omega
        rw [hj, this, List.getElem?_cons_succ, add_zero]
      · rw [if_neg h2, if_neg h1, if_neg (by omega), add_zero, add_zero]

theorem sum_fold (q0 q1 : ℕ → ℝ) (l : List Slot) (a : ℝ) :
    l.foldl (fun acc s => acc + s.g.sqDist ε (seg q0 s.iq) (seg q1 s.iq)) a =
      a + (l.map fun s => s.g.sqDist ε (seg q0 s.iq) (seg q1 s.iq)).sum := by
  induction l generalizing a with
  | nil => simp
  | cons s l ih => rw [List.foldl_cons, ih, List.map_cons, List.sum_cons]; ring

end Lie
end Pin
