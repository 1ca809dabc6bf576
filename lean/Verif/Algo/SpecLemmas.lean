import Verif.Spec.Kinematics
import Mathlib.Algebra.BigOperators.GroupWithZero.Action

/-! # Lemmas about the specification functions -/

set_option linter.unusedSectionVars false

namespace Pin
open Finset
variable {K : Type*} [CommRing K]

theorem comb_add (S : ℕ → Motion K) (n : ℕ) (x y : ℕ → K) :
    comb S n (fun k => x k + y k) = comb S n x + comb S n y := by
  simp only [comb, add_smul, sum_add_distrib]
theorem comb_smul (S : ℕ → Motion K) (n : ℕ) (c : K) (x : ℕ → K) :
    comb S n (fun k => c * x k) = c • comb S n x := by
  simp only [comb, mul_smul, smul_sum]
theorem comb_zero (S : ℕ → Motion K) (n : ℕ) : comb S n (fun _ => 0) = 0 := by
  simp [comb]
theorem comb_congr {S T : ℕ → Motion K} {n : ℕ} {x y : ℕ → K} (hS : ∀ k < n, S k = T k)
    (hx : ∀ k < n, x k = y k) : comb S n x = comb T n y :=
  sum_congr rfl fun k hk => by rw [hS k (mem_range.1 hk), hx k (mem_range.1 hk)]

theorem Motion.sum_dot {ι : Type*} (t : Finset ι) (g : ι → Motion K) (f : Force K) :
    (∑ i ∈ t, g i).dot f = ∑ i ∈ t, (g i).dot f := by
  classical
  induction t using Finset.induction_on with
  | empty => simp
  | insert a t ha ih => rw [sum_insert ha, sum_insert ha, Motion.add_dot, ih]
theorem Motion.dot_sum {ι : Type*} (t : Finset ι) (v : Motion K) (g : ι → Force K) :
    v.dot (∑ i ∈ t, g i) = ∑ i ∈ t, v.dot (g i) := by
  classical
  induction t using Finset.induction_on with
  | empty => simp
  | insert a t ha ih => rw [sum_insert ha, sum_insert ha, Motion.dot_add, ih]
theorem dot_comb (S : ℕ → Motion K) (n : ℕ) (x : ℕ → K) (f : Force K) :
    (comb S n x).dot f = ∑ k ∈ range n, x k * (S k).dot f := by
  rw [comb, Motion.sum_dot]
  exact sum_congr rfl fun k _ => Motion.smul_dot ..
theorem SE3.act_sum {ι : Type*} (t : Finset ι) (M : SE3 K) (g : ι → Motion K) :
    M.act (∑ i ∈ t, g i) = ∑ i ∈ t, M.act (g i) := by
  classical
  induction t using Finset.induction_on with
  | empty => simp
  | insert a t ha ih => rw [sum_insert ha, sum_insert ha, SE3.act_add, ih]
theorem SE3.actInv_sum {ι : Type*} (t : Finset ι) (M : SE3 K) (g : ι → Motion K) :
    M.actInv (∑ i ∈ t, g i) = ∑ i ∈ t, M.actInv (g i) := by
  classical
  induction t using Finset.induction_on with
  | empty => simp
  | insert a t ha ih => rw [sum_insert ha, sum_insert ha, SE3.actInv_add, ih]
theorem SE3.actF_sum {ι : Type*} (t : Finset ι) (M : SE3 K) (g : ι → Force K) :
    M.actF (∑ i ∈ t, g i) = ∑ i ∈ t, M.actF (g i) := by
  classical
  induction t using Finset.induction_on with
  | empty => simp
  | insert a t ha ih => rw [sum_insert ha, sum_insert ha, SE3.actF_add, ih]
theorem act_comb (M : SE3 K) (S : ℕ → Motion K) (n : ℕ) (x : ℕ → K) :
    M.act (comb S n x) = comb (fun k => M.act (S k)) n x := by
  rw [comb, SE3.act_sum]
  exact sum_congr rfl fun k _ => SE3.act_smul ..

/-- the power as a biadditive map -/
def dotHom : Motion K →+ Force K →+ K where
  toFun v := { toFun := fun f => v.dot f, map_zero' := Motion.dot_zero v, map_add' := Motion.dot_add v }
  map_zero' := by ext f; simp
  map_add' v w := by ext f; simp [Motion.add_dot]

@[simp] theorem dotHom_apply (v : Motion K) (f : Force K) : dotHom v f = v.dot f := rfl

/-! ## paths -/
theorem path_zero (par : ℕ → ℕ) : path par 0 = [] := treeRec_zero ..
theorem path_step {par : ℕ → ℕ} {j : ℕ} (h1 : 1 ≤ j) (hp : par j < j) :
    path par j = path par (par j) ++ [j] := treeRec_step _ _ h1 hp

theorem mem_path {par : ℕ → ℕ} {n : ℕ} (hp : ParOk par n) {i : ℕ} :
    ∀ j, j < n → (i ∈ path par j ↔ 1 ≤ i ∧ anc par i j) := by
  intro j
  induction j using Nat.strong_induction_on with
  | _ j ih =>
    intro hj
    rcases Nat.eq_zero_or_pos j with rfl | h1
    · rw [path_zero, anc_zero]; simp; omega
    · have hpj := hp.2 j h1 hj
      rw [path_step h1 hpj, List.mem_append, ih _ hpj (by omega), anc_step h1 hpj, List.mem_singleton]
      constructor
      · rintro (⟨a, b⟩ | rfl)
        · exact ⟨a, Or.inr b⟩
        · exact ⟨h1, Or.inl rfl⟩
      · rintro ⟨a, rfl | b⟩
        · exact Or.inr rfl
        · exact Or.inl ⟨a, b⟩

namespace Sys
variable (s : Sys K)

theorem oM_zero (q : ℕ → K) : s.oM q 0 = 1 := by
  unfold oM; rw [path_zero]; rfl
theorem oM_step {q : ℕ → K} {j : ℕ} (h1 : 1 ≤ j) (hp : s.par j < j) :
    s.oM q j = s.oM q (s.par j) * s.X q j := by
  unfold oM; rw [path_step h1 hp, List.map_append, List.foldl_append]; rfl

theorem X_valid {q : ℕ → K} (h : s.At q) {i : ℕ} (h1 : 1 ≤ i) (hi : i < s.n) : (s.X q i).Valid :=
  (h.pl i h1 hi).mul (h.jt i h1 hi).valid

theorem oM_valid (hp : ParOk s.par s.n) {q : ℕ → K} (h : s.At q) : ∀ j, j < s.n → (s.oM q j).Valid := by
  intro j
  induction j using Nat.strong_induction_on with
  | _ j ih =>
    intro hj
    rcases Nat.eq_zero_or_pos j with rfl | h1
    · rw [oM_zero]; exact SE3.valid_one
    · have := hp.2 j h1 hj
      rw [oM_step s h1 this]
      exact (ih _ this (by omega)).mul (s.X_valid h h1 hj)

theorem V_zero (q w : ℕ → K) : s.V q w 0 = 0 := treeRec_zero ..
theorem V_step {q w : ℕ → K} {i : ℕ} (h1 : 1 ≤ i) (hp : s.par i < i) :
    s.V q w i = s.jvel q w i + (s.X q i).actInv (s.V q w (s.par i)) := treeRec_step _ _ h1 hp
theorem A_zero (a0 : Motion K) (q v a : ℕ → K) : s.A a0 q v a 0 = a0 := treeRec_zero ..
theorem A_step {a0 : Motion K} {q v a : ℕ → K} {i : ℕ} (h1 : 1 ≤ i) (hp : s.par i < i) :
    s.A a0 q v a i = s.jvel q a i + s.cb q v i + (s.V q v i).cross (s.jvel q v i)
      + (s.X q i).actInv (s.A a0 q v a (s.par i)) := treeRec_step _ _ h1 hp

theorem jvel_add (q w w' : ℕ → K) (i : ℕ) :
    s.jvel q (fun r => w r + w' r) i = s.jvel q w i + s.jvel q w' i := comb_add _ _ (s.vs w i) (s.vs w' i)
theorem jvel_smul (q : ℕ → K) (c : K) (w : ℕ → K) (i : ℕ) :
    s.jvel q (fun r => c * w r) i = c • s.jvel q w i := comb_smul _ _ c (s.vs w i)
theorem jvel_zero (q : ℕ → K) (i : ℕ) : s.jvel q (fun _ => 0) i = 0 := comb_zero _ _

/-- strong induction on joints along parents -/
@[elab_as_elim] theorem joint_ind (hp : ParOk s.par s.n) {P : ℕ → Prop} (h0 : P 0)
    (hs : ∀ i, 1 ≤ i → i < s.n → P (s.par i) → P i) (i : ℕ) (hi : i < s.n) : P i := by
  revert hi
  induction i using Nat.strong_induction_on with
  | _ i ih =>
    intro hi
    rcases Nat.eq_zero_or_pos i with rfl | h1
    · exact h0
    · have := hp.2 i h1 hi
      exact hs i h1 hi (ih _ this (by omega))

variable {s}
theorem V_add (hp : ParOk s.par s.n) (q w w' : ℕ → K) : ∀ i, i < s.n →
    s.V q (fun r => w r + w' r) i = s.V q w i + s.V q w' i := by
  intro i hi; refine joint_ind s hp ?_ ?_ i hi <;> clear hi i
  · simp [V_zero]
  · intro i h1 hi ih
    have := hp.2 i h1 hi
    rw [V_step s h1 this, V_step s h1 this, V_step s h1 this, ih, jvel_add, SE3.actInv_add]
    abel
theorem V_smul (hp : ParOk s.par s.n) (q : ℕ → K) (c : K) (w : ℕ → K) : ∀ i, i < s.n →
    s.V q (fun r => c * w r) i = c • s.V q w i := by
  intro i hi; refine joint_ind s hp ?_ ?_ i hi <;> clear hi i
  · simp [V_zero]
  · intro i h1 hi ih
    have := hp.2 i h1 hi
    rw [V_step s h1 this, V_step s h1 this, ih, jvel_smul, SE3.actInv_smul, smul_add]
theorem V_zero_vel (hp : ParOk s.par s.n) (q : ℕ → K) : ∀ i, i < s.n → s.V q (fun _ => 0) i = 0 := by
  intro i hi; refine joint_ind s hp ?_ ?_ i hi <;> clear hi i
  · simp [V_zero]
  · intro i h1 hi ih
    have := hp.2 i h1 hi
    rw [V_step s h1 this, ih, jvel_zero]; simp

theorem jvel_congr {q w w' : ℕ → K} {i : ℕ} (h : ∀ k, k < s.jnv i → w (s.iv i + k) = w' (s.iv i + k)) :
    s.jvel q w i = s.jvel q w' i :=
  comb_congr (fun _ _ => rfl) (fun k hk => h k hk)

/-- velocities only depend on the first `nv` entries -/
theorem V_congr (hw : s.WF) {q w w' : ℕ → K} (h : ∀ r < s.nv, w r = w' r) :
    ∀ i, i < s.n → s.V q w i = s.V q w' i := by
  intro i hi; refine joint_ind s hw.par ?_ ?_ i hi <;> clear hi i
  · simp [V_zero]
  · intro i h1 hi ih
    have := hw.par.2 i h1 hi
    rw [V_step s h1 this, V_step s h1 this, ih]
    congr 1
    apply jvel_congr
    intro k hk
    exact h _ (by have := hw.ivle i h1 hi; omega)

/-- accelerations are affine in the joint acceleration -/
theorem A_eq (hp : ParOk s.par s.n) (a0 : Motion K) (q v a : ℕ → K) : ∀ i, i < s.n →
    s.A a0 q v a i = s.V q a i + s.A a0 q v (fun _ => 0) i := by
  intro i hi; refine joint_ind s hp ?_ ?_ i hi <;> clear hi i
  · simp [V_zero, A_zero]
  · intro i h1 hi ih
    have := hp.2 i h1 hi
    rw [A_step s h1 this, V_step (w := a) s h1 this, A_step s h1 this, ih, jvel_zero, SE3.actInv_add]
    abel

/-- and in the acceleration of the universe -/
theorem A_base (hp : ParOk s.par s.n) (a0 : Motion K) (q v a : ℕ → K) : ∀ i, i < s.n →
    s.A a0 q v a i = s.A 0 q v a i
      + treeRec s.par a0 (fun i x => (s.X q i).actInv x) i := by
  intro i hi; refine joint_ind s hp ?_ ?_ i hi <;> clear hi i
  · simp [A_zero, treeRec_zero]
  · intro i h1 hi ih
    have := hp.2 i h1 hi
    rw [A_step s h1 this, A_step s h1 this, ih, treeRec_step _ _ h1 this, SE3.actInv_add]
    abel

/-- the transported acceleration of the universe -/
theorem base_eq (hp : ParOk s.par s.n) {q : ℕ → K} (hq : s.At q) (a0 : Motion K) : ∀ i, i < s.n →
    treeRec s.par a0 (fun i x => (s.X q i).actInv x) i = (s.oM q i).actInv a0 := by
  intro i hi; refine joint_ind s hp ?_ ?_ i hi <;> clear hi i
  · simp [treeRec_zero, oM_zero]
  · intro i h1 hi ih
    have := hp.2 i h1 hi
    rw [treeRec_step _ _ h1 this, ih, oM_step s h1 this,
      SE3.mul_actInv (s.oM_valid hp hq _ (by omega)) (s.X_valid hq h1 hi)]

theorem dotv_add (x y z : ℕ → K) : s.dotv x (fun r => y r + z r) = s.dotv x y + s.dotv x z := by
  simp only [dotv, mul_add, sum_add_distrib]
theorem dotv_sub (x y z : ℕ → K) : s.dotv x (fun r => y r - z r) = s.dotv x y - s.dotv x z := by
  simp only [dotv, mul_sub, sum_sub_distrib]
theorem dotv_unit {r : ℕ} (hr : r < s.nv) (y : ℕ → K) : s.dotv (unit r) y = y r := by
  simp only [dotv, unit, ite_mul, one_mul, zero_mul]
  rw [Finset.sum_ite_eq' (range s.nv) r]
  simp [hr]
/-- two joint vectors with the same inner products are equal -/
theorem dotv_ext {y z : ℕ → K} (h : ∀ x, s.dotv x y = s.dotv x z) {r : ℕ} (hr : r < s.nv) : y r = z r := by
  have := h (unit r)
  rwa [dotv_unit hr, dotv_unit hr] at this

theorem massForm_symm (q w a : ℕ → K) : s.massForm q w a = s.massForm q a w := by
  unfold massForm
  congr 1
  · exact sum_congr rfl fun i _ => Inertia.dot_mul_comm ..
  · exact sum_congr rfl fun r _ => by ring

theorem massForm_add_right (hp : ParOk s.par s.n) (q w a b : ℕ → K) :
    s.massForm q w (fun r => a r + b r) = s.massForm q w a + s.massForm q w b := by
  unfold massForm
  have : (fun r => s.arm r * (a r + b r)) = fun r => s.arm r * a r + s.arm r * b r := by
    funext r; ring
  rw [this, dotv_add, sum_congr rfl (g := fun i => (s.V q w i).dot ((s.Y i).mul (s.V q a i))
    + (s.V q w i).dot ((s.Y i).mul (s.V q b i))), sum_add_distrib]
  · abel
  · intro i hi
    rw [V_add hp q a b i (mem_Ico.1 hi).2, Inertia.mul_add, Motion.dot_add]
theorem massForm_smul_right (hp : ParOk s.par s.n) (q w : ℕ → K) (c : K) (a : ℕ → K) :
    s.massForm q w (fun r => c * a r) = c * s.massForm q w a := by
  unfold massForm
  rw [_root_.mul_add, mul_sum]
  congr 1
  · apply sum_congr rfl
    intro i hi
    rw [V_smul hp q c a i (mem_Ico.1 hi).2, Inertia.mul_smul, Motion.dot_smul]
  · simp only [dotv, mul_sum]
    exact sum_congr rfl fun r _ => by ring
theorem massForm_zero_right (hp : ParOk s.par s.n) (q w : ℕ → K) :
    s.massForm q w (fun _ => 0) = 0 := by
  have := massForm_smul_right hp q w 0 (fun _ => 0)
  simpa using this
theorem massForm_congr_right (hw : s.WF) {q w a b : ℕ → K} (h : ∀ r < s.nv, a r = b r) :
    s.massForm q w a = s.massForm q w b := by
  unfold massForm
  congr 1
  · apply sum_congr rfl
    intro i hi
    rw [V_congr hw h i (mem_Ico.1 hi).2]
  · apply sum_congr rfl
    intro r hr
    simp only [h r (mem_range.1 hr)]

/-- the bilinear form in coordinates -/
theorem massForm_coord (hw : s.WF) (q w a : ℕ → K) :
    s.massForm q w a = ∑ c ∈ range s.nv, s.massForm q w (unit c) * a c := by
  have key : ∀ m, s.massForm q w (fun r => if r < m then a r else 0)
      = ∑ c ∈ range m, s.massForm q w (unit c) * a c := by
    intro m
    induction m with
    | zero => simpa using massForm_zero_right hw.par q w
    | succ m ih =>
      have : (fun r => if r < m + 1 then a r else 0)
          = fun r => (fun r => if r < m then a r else 0) r + (fun r => a m * unit m r) r := by
        funext r
        simp only [unit]
        by_cases h1 : r < m
        · simp [h1, Nat.lt_succ_of_lt h1, Nat.ne_of_lt h1]
        · by_cases h2 : r = m
          · subst h2; simp
          · have : ¬ r < m + 1 := by omega
            simp [h1, h2, this]
      rw [this, massForm_add_right hw.par, ih, massForm_smul_right hw.par, sum_range_succ]
      ring
  rw [← key]
  apply massForm_congr_right hw
  intro r hr
  simp [hr]

end Sys

/-! ## the torque vector written by backward passes -/

/-- entry `r` of the contribution of a joint with first column `i`, `n` columns `S` and force `f` -/
def torqueAt (i n : ℕ) (S : ℕ → Motion K) (f : Force K) (r : ℕ) : K :=
  if i ≤ r ∧ r < i + n then (S (r - i)).dot f else 0

theorem sum_torqueAt {m i n : ℕ} (h : i + n ≤ m) (S : ℕ → Motion K) (f : Force K) (w : ℕ → K) :
    ∑ r ∈ range m, w r * torqueAt i n S f r = (comb S n (seg w i)).dot f := by
  rw [dot_comb]
  have : ∀ r, w r * torqueAt i n S f r
      = if i ≤ r ∧ r < i + n then w r * (S (r - i)).dot f else 0 := by
    intro r; unfold torqueAt; split <;> simp
  simp only [this]
  rw [← sum_filter]
  have e : (range m).filter (fun r => i ≤ r ∧ r < i + n) = (range n).image (fun k => i + k) := by
    ext r
    simp only [mem_filter, mem_range, mem_image]
    constructor
    · rintro ⟨a, b, c⟩; exact ⟨r - i, by omega, by omega⟩
    · rintro ⟨k, a, rfl⟩; omega
  rw [e, sum_image (by intro a _ b _ h; simpa using h)]
  apply sum_congr rfl
  intro k _
  simp [seg]

end Pin
