import Verif.Algo.WorkspaceLemmas
import Mathlib.Algebra.Field.Basic
import Mathlib.Tactic.SplitIfs

/-! # Velocities of the reachable workspace

Model of the gathering of the bounds in `computeVertex` (`extra/reachable-workspace.hxx:196-214`), of the
velocities it forms (`:215-226`) and of `computeJointVel` (`:244-267`), over a field. The bounds
`dq_ub` and `dq_lb` are data (`:137-149` is not modelled). Arrays keep what the previous turn left in them. -/

namespace Pin
namespace Workspace

variable {A : Type*}

/-- `count_false`, `count_true`, `diff_dq`, `reduced_dqlb`, `DQ_ub_ind` and `DQ_lb_ind`,
`extra/reachable-workspace.hxx:179-186, 196-197`. -/
structure Gather (A : Type*) where
  cf : ℕ
  ct : ℕ
  diff : ℕ → A
  low : ℕ → A
  up : ℕ → A
  dn : ℕ → A

/-- One turn of `for (k = 0; k < model.nv; k++)`, `extra/reachable-workspace.hxx:198-214`. -/
def gatherStep [Sub A] (f p : ℕ) (comb : ℕ → ℕ) (ub lb : ℕ → A) (g : Gather A) (k : ℕ) : Gather A :=
  if k = comb g.cf then
    { g with
      diff := Function.update g.diff g.cf (ub (comb g.cf) - lb (comb g.cf))
      low := Function.update g.low g.cf (lb (comb g.cf))
      cf := if g.cf < f - 1 then g.cf + 1 else g.cf }
  else
    { g with
      up := Function.update g.up g.ct (ub k)
      dn := Function.update g.dn g.ct (lb k)
      ct := if g.ct < p - 1 then g.ct + 1 else g.ct }

/-- The loop `extra/reachable-workspace.hxx:196-214` after `K` turns, on arrays left by `g₀`. -/
def gather [Sub A] (f p : ℕ) (comb : ℕ → ℕ) (ub lb : ℕ → A) (g₀ : Gather A) : ℕ → Gather A
  | 0 => { g₀ with cf := 0, ct := 0 }
  | K + 1 => gatherStep f p comb ub lb (gather f p comb ub lb g₀ K) K

/-- `computeJointVel(res1, res2, comb, qv)`, `extra/reachable-workspace.hxx:244-267`, after `K` turns: the
two counters and `qv`. `f` and `p` are the sizes of `res1` and `res2`. -/
def jointVel (f p : ℕ) (comb : ℕ → ℕ) (res1 res2 qv : ℕ → A) : ℕ → ℕ × ℕ × (ℕ → A)
  | 0 => (0, 0, qv)
  | K + 1 =>
    let s := jointVel f p comb res1 res2 qv K
    if K = comb s.1 then
      (if s.1 < f - 1 then s.1 + 1 else s.1, s.2.1, Function.update s.2.2 K (res1 s.1))
    else
      (s.1, if s.2.1 < p - 1 then s.2.1 + 1 else s.2.1, Function.update s.2.2 K (res2 s.2.1))

/-- `qv` at turn `(c, p, ng)` of the three loops, `extra/reachable-workspace.hxx:192-229`, for `n` degrees
of freedom, `f = facet_dims` and `m = n_samples`: `temp` is `(1, 0)` and `x_rng` is `(0, …, m - 1) / m`
(`:158-166`); `g₀` and `qv` are left by the previous turns. -/
def velocity [Field A] (n f m : ℕ) (ub lb : ℕ → A) (g₀ : Gather A) (qv : ℕ → A) (c p ng : ℕ) : ℕ → A :=
  let comb := combAt n f c
  let g := gather f (n - f) comb ub lb g₀ n
  let callPerm := c * 2 ^ (n - f) + p
  let perm : ℕ → A := fun i => if prodAt 2 (n - f) callPerm i = 0 then 1 else 0
  let resultsPerm : ℕ → A := fun i => perm i * g.up i + (1 - perm i) * g.dn i
  let callRng := callPerm * m ^ f + ng
  let combRng : ℕ → A := fun i => (prodAt m f callRng i : A) / m
  let resultsRng : ℕ → A := fun i => g.diff i * combRng i + g.low i
  (jointVel f (n - f) comb resultsRng resultsPerm qv n).2.2

/-- Number of sampled degrees of freedom below `k`. -/
def cnt (f : ℕ) (comb : ℕ → ℕ) : ℕ → ℕ
  | 0 => 0
  | k + 1 => cnt f comb k + if k = comb (min (cnt f comb k) (f - 1)) then 1 else 0

/-- `k` is sampled. -/
def Hit (f : ℕ) (comb : ℕ → ℕ) (k : ℕ) : Prop := k = comb (min (cnt f comb k) (f - 1))

instance (f comb k) : Decidable (Hit f comb k) := by unfold Hit; infer_instance

variable {n f : ℕ} {comb : ℕ → ℕ}

theorem cnt_ok (h : IsComb n f comb) (hf : 0 < f) : ∀ k, cnt f comb k ≤ f ∧ cnt f comb k ≤ k ∧
    (∀ i < cnt f comb k, comb i < k) ∧ ∀ i, cnt f comb k ≤ i → i < f → k ≤ comb i
  | 0 => ⟨by simp [cnt], by simp [cnt], by simp [cnt], by simp⟩
  | k + 1 => by
    obtain ⟨a, b, c, d⟩ := cnt_ok h hf k
    simp only [cnt]
    split_ifs with e
    · have hlt : cnt f comb k < f := by
        by_contra hge
        have := c (f - 1) (by omega)
        rw [min_eq_right (by omega)] at e
        omega
      rw [min_eq_left (by omega)] at e
      refine ⟨by omega, by omega, fun i hi => ?_, fun i hi hi' => ?_⟩
      · rcases Nat.lt_succ_iff_lt_or_eq.mp hi with hi | rfl
        · have := c i hi; omega
        · omega
      · have := h.lower _ hlt (i - cnt f comb k) (by omega)
        rw [Nat.add_sub_of_le (by omega)] at this
        omega
    · refine ⟨by omega, by omega, fun i hi => ?_, fun i hi hi' => ?_⟩
      · have := c i (by omega); omega
      · have h0 := d (cnt f comb k) le_rfl (by omega)
        rw [min_eq_left (by omega)] at e
        have := h.lower (cnt f comb k) (by omega) (i - cnt f comb k) (by omega)
        rw [Nat.add_sub_of_le (by omega)] at this
        omega

theorem hit_lt (h : IsComb n f comb) (hf : 0 < f) {k : ℕ} (e : Hit f comb k) :
    cnt f comb k < f ∧ comb (cnt f comb k) = k := by
  obtain ⟨a, b, c, d⟩ := cnt_ok h hf k
  unfold Hit at e
  have hlt : cnt f comb k < f := by
    by_contra hge
    have := c (f - 1) (by omega)
    rw [min_eq_right (by omega)] at e
    omega
  rw [min_eq_left (by omega)] at e
  exact ⟨hlt, e.symm⟩

theorem cnt_comb (h : IsComb n f comb) (hf : 0 < f) (i : ℕ) (hi : i < f) : cnt f comb (comb i) = i := by
  obtain ⟨a, b, c, d⟩ := cnt_ok h hf (comb i)
  rcases lt_trichotomy (cnt f comb (comb i)) i with l | l | l
  · have := d _ le_rfl (by omega)
    have h2 := h.lower _ (by omega : cnt f comb (comb i) < f) (i - cnt f comb (comb i)) (by omega)
    rw [Nat.add_sub_of_le l.le] at h2
    omega
  · exact l
  · have := c i l; omega

theorem hit_comb (h : IsComb n f comb) (hf : 0 < f) (i : ℕ) (hi : i < f) : Hit f comb (comb i) := by
  unfold Hit
  rw [cnt_comb h hf i hi, min_eq_left (by omega)]

theorem hit_iff (h : IsComb n f comb) (hf : 0 < f) (k : ℕ) :
    Hit f comb k ↔ k ∈ (Finset.range f).image comb := by
  simp only [Finset.mem_image, Finset.mem_range]
  refine ⟨fun e => ⟨_, hit_lt h hf e⟩, ?_⟩
  rintro ⟨i, hi, rfl⟩
  exact hit_comb h hf i hi

/-- Number of degrees of freedom at a bound below `k`. -/
def off (f : ℕ) (comb : ℕ → ℕ) (k : ℕ) : ℕ := k - cnt f comb k

theorem off_lt (h : IsComb n f comb) (hf : 0 < f) (hn : f ≤ n) {k : ℕ} (hk : k < n) (e : ¬ Hit f comb k) :
    off f comb k < n - f := by
  obtain ⟨a, b, c, d⟩ := cnt_ok h hf k
  unfold off
  by_cases hlt : cnt f comb k < f
  · have h1 := d _ le_rfl hlt
    have h2 := h.upper hn _ hlt
    have h3 : k ≠ comb (cnt f comb k) := by
      intro e'; apply e; unfold Hit; rw [min_eq_left (by omega)]; exact e'
    omega
  · omega

theorem cnt_succ (k : ℕ) : cnt f comb (k + 1) = cnt f comb k + if Hit f comb k then 1 else 0 := rfl

theorem off_succ (h : IsComb n f comb) (hf : 0 < f) (k : ℕ) :
    off f comb (k + 1) = off f comb k + if Hit f comb k then 0 else 1 := by
  have := (cnt_ok h hf k).2.1
  unfold off
  rw [cnt_succ]
  split_ifs <;> omega

theorem off_mono (h : IsComb n f comb) (hf : 0 < f) {k : ℕ} (e : ¬ Hit f comb k) :
    ∀ K, k < K → off f comb k < off f comb K
  | 0, hk => absurd hk (by omega)
  | K + 1, hk => by
    rw [off_succ h hf]
    rcases Nat.lt_succ_iff_lt_or_eq.mp hk with hk | rfl
    · have := off_mono h hf e K hk; omega
    · rw [if_neg e]; omega

theorem gather_ok [Sub A] (h : IsComb n f comb) (hf : 0 < f) (hn : f ≤ n) (ub lb : ℕ → A) (g₀ : Gather A) :
    ∀ K ≤ n, (gather f (n - f) comb ub lb g₀ K).cf = min (cnt f comb K) (f - 1) ∧
      (gather f (n - f) comb ub lb g₀ K).ct = min (off f comb K) (n - f - 1) ∧
      (∀ i < cnt f comb K, (gather f (n - f) comb ub lb g₀ K).diff i = ub (comb i) - lb (comb i) ∧
        (gather f (n - f) comb ub lb g₀ K).low i = lb (comb i)) ∧
      ∀ k < K, ¬ Hit f comb k → (gather f (n - f) comb ub lb g₀ K).up (off f comb k) = ub k ∧
        (gather f (n - f) comb ub lb g₀ K).dn (off f comb k) = lb k
  | 0, _ => ⟨by simp [gather, cnt], by simp [gather, off], by simp [cnt], by simp⟩
  | K + 1, hK => by
    obtain ⟨a, b, c, d⟩ := gather_ok h hf hn ub lb g₀ K (by omega)
    rw [cnt_succ, off_succ h hf]
    simp only [gather]
    generalize gather f (n - f) comb ub lb g₀ K = g at a b c d
    by_cases e : Hit f comb K
    · obtain ⟨e1, e2⟩ := hit_lt h hf e
      have hcf : g.cf = cnt f comb K := by rw [a, min_eq_left (by omega)]
      rw [if_pos e, if_pos e]
      have hg : K = comb g.cf := by rw [hcf, e2]
      rw [gatherStep, if_pos hg]
      refine ⟨?_, by simpa using b, fun i hi => ?_, fun k hk he => ?_⟩
      · simp only [hcf]; split_ifs <;> omega
      · simp only [Function.update_apply]
        by_cases hi' : i = g.cf
        · subst hi'; simp
        · simpa [hi'] using c i (by omega)
      · have : k ≠ K := fun e' => he (e' ▸ e)
        simpa using d k (by omega) he
    · rw [if_neg e, if_neg e]
      have hg : ¬ K = comb g.cf := by rw [a]; exact e
      have ho := off_lt h hf hn (by omega) e
      have hct : g.ct = off f comb K := by rw [b, min_eq_left (by omega)]
      rw [gatherStep, if_neg hg]
      refine ⟨by simpa using a, ?_, fun i hi => by simpa using c i (by simpa using hi), fun k hk he => ?_⟩
      · simp only [hct]; split_ifs <;> omega
      · simp only [Function.update_apply, hct]
        rcases Nat.lt_succ_iff_lt_or_eq.mp hk with hk | rfl
        · have := off_mono h hf he K hk
          rw [if_neg (by omega), if_neg (by omega)]
          exact d k hk he
        · simp

theorem jointVel_ok (h : IsComb n f comb) (hf : 0 < f) (hn : f ≤ n) (r1 r2 qv : ℕ → A) :
    ∀ K ≤ n, (jointVel f (n - f) comb r1 r2 qv K).1 = min (cnt f comb K) (f - 1) ∧
      (jointVel f (n - f) comb r1 r2 qv K).2.1 = min (off f comb K) (n - f - 1) ∧
      ∀ k < K, (jointVel f (n - f) comb r1 r2 qv K).2.2 k
        = if Hit f comb k then r1 (cnt f comb k) else r2 (off f comb k)
  | 0, _ => ⟨by simp [jointVel, cnt], by simp [jointVel, off], by simp⟩
  | K + 1, hK => by
    obtain ⟨a, b, c⟩ := jointVel_ok h hf hn r1 r2 qv K (by omega)
    rw [cnt_succ, off_succ h hf]
    simp only [jointVel]
    generalize jointVel f (n - f) comb r1 r2 qv K = g at a b c
    by_cases e : Hit f comb K
    · obtain ⟨e1, e2⟩ := hit_lt h hf e
      have hcf : g.1 = cnt f comb K := by rw [a, min_eq_left (by omega)]
      rw [if_pos e, if_pos e, if_pos (show K = comb g.1 by rw [hcf, e2])]
      refine ⟨?_, by simpa using b, fun k hk => ?_⟩
      · simp only [hcf]; split_ifs <;> omega
      · simp only [Function.update_apply, hcf]
        by_cases hk' : k = K
        · subst hk'; rw [if_pos rfl, if_pos e]
        · rw [if_neg hk']; exact c k (by omega)
    · have ho := off_lt h hf hn (by omega) e
      have hct : g.2.1 = off f comb K := by rw [b, min_eq_left (by omega)]
      rw [if_neg e, if_neg e, if_neg (show ¬ K = comb g.1 by rw [a]; exact e)]
      refine ⟨by simpa using a, ?_, fun k hk => ?_⟩
      · simp only [hct]; split_ifs <;> omega
      · simp only [Function.update_apply, hct]
        by_cases hk' : k = K
        · subst hk'; rw [if_pos rfl, if_neg e]
        · rw [if_neg hk']; exact c k (by omega)
end Workspace
end Pin
