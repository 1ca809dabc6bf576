import Verif.Algo.ConstraintDynamicsLemmas

/-! # Lemmas for `Algo/ConstraintDynamics.lean`: the proximal loop and the segments of the constraints -/

set_option linter.unusedSectionVars false

namespace Pin
open Finset
universe u
variable {K : Type u}

/-! ## segments -/

section
variable [CommRing K]

theorem fillSegs_fold {α : Type*} (dim : α → ℕ) (f : α → ℕ → K) (cs : List α) (x : ℕ → K) (n : ℕ) :
    let y := cs.foldl (fun (y : (ℕ → K) × ℕ) m => (putSeg y.1 y.2 (dim m) (f m), y.2 + dim m)) (x, n)
    y.2 = n + (cs.map dim).sum ∧ ∀ r, r < n ∨ n + (cs.map dim).sum ≤ r → y.1 r = x r := by
  induction cs generalizing x n with
  | nil => exact ⟨rfl, fun _ _ => rfl⟩
  | cons m l ih =>
    obtain ⟨a, b⟩ := ih (putSeg x n (dim m) (f m)) (n + dim m)
    simp only [List.foldl_cons, List.map_cons, List.sum_cons] at *
    refine ⟨by rw [a]; omega, fun r hr => ?_⟩
    rw [b r (by omega), putSeg_out _ _ (by omega)]

theorem fillSegs_at {α : Type*} (dim : α → ℕ) (f : α → ℕ → K) (pre : List α) (m : α) (post : List α) (x : ℕ → K) {r : ℕ}
    (hr : r < dim m) : fillSegs dim f (pre ++ m :: post) x ((pre.map dim).sum + r) = f m r := by
  unfold fillSegs
  rw [List.foldl_append, List.foldl_cons]
  obtain ⟨a, -⟩ := fillSegs_fold dim f pre x 0
  set y := pre.foldl (fun (y : (ℕ → K) × ℕ) m => (putSeg y.1 y.2 (dim m) (f m), y.2 + dim m)) (x, 0)
  rw [(fillSegs_fold dim f post _ _).2 _ (by left; rw [a]; omega), a, Nat.zero_add, putSeg_at _ _ hr]

theorem fillSegs_out {α : Type*} (dim : α → ℕ) (f : α → ℕ → K) (cs : List α) (x : ℕ → K) {r : ℕ}
    (hr : (cs.map dim).sum ≤ r) : fillSegs dim f cs x r = x r :=
  (fillSegs_fold dim f cs x 0).2 r (Or.inr (by omega))

theorem fillSegs_indep {α : Type*} (dim : α → ℕ) (f : α → ℕ → K) (cs : List α) (x x' : ℕ → K) {r : ℕ}
    (hr : r < (cs.map dim).sum) : fillSegs dim f cs x r = fillSegs dim f cs x' r := by
  have key : ∀ (cs : List α) (x x' : ℕ → K) (n : ℕ), (∀ k < n, x k = x' k) → ∀ r < n + (cs.map dim).sum,
      (cs.foldl (fun (y : (ℕ → K) × ℕ) m => (putSeg y.1 y.2 (dim m) (f m), y.2 + dim m)) (x, n)).1 r
        = (cs.foldl (fun (y : (ℕ → K) × ℕ) m => (putSeg y.1 y.2 (dim m) (f m), y.2 + dim m)) (x', n)).1 r := by
    intro cs
    induction cs with
    | nil => intro x x' n hx r hr; exact hx r (by simpa using hr)
    | cons m l ih =>
      intro x x' n hx r hr
      simp only [List.foldl_cons, List.map_cons, List.sum_cons] at *
      refine ih _ _ _ (fun k hk => ?_) r (by omega)
      unfold putSeg
      split
      · rfl
      · exact hx k (by omega)
  exact key cs x x' 0 (fun _ h => absurd h (by omega)) r (by omega)

theorem totalSize_sum (ms : List (RCM K)) : totalSize ms = (ms.map fun m => m.type.dim).sum := by
  induction ms with
  | nil => rfl
  | cons m l ih => rw [totalSize_cons, ih, List.map_cons, List.sum_cons]

theorem stackJac_at (s : Sys K) (d : Data K) (pre : List (RCM K)) (m : RCM K) (post : List (RCM K)) {r : ℕ}
    (hr : r < m.type.dim) (k : ℕ) : stackJac s d (pre ++ m :: post) ((pre.map fun m => m.type.dim).sum + r) k
      = m.jacobian s d (m.calc d) (fun _ _ => 0) r k := by
  induction pre with
  | nil =>
    have : stackJac s d (m :: post) ((([] : List (RCM K)).map fun m => m.type.dim).sum + r) k = if
        (([] : List (RCM K)).map fun m => m.type.dim).sum + r < m.type.dim then _ else _ := rfl
    rw [List.nil_append, this]
    simp [hr]
  | cons p l ih =>
    have : ∀ r, stackJac s d (p :: (l ++ m :: post)) r k = if r < p.type.dim then
      p.jacobian s d (p.calc d) (fun _ _ => 0) r k else stackJac s d (l ++ m :: post) (r - p.type.dim) k := fun _ => rfl
    rw [List.cons_append, this, List.map_cons, List.sum_cons, if_neg (by omega)]
    rw [show p.type.dim + (l.map fun m => m.type.dim).sum + r - p.type.dim = (l.map fun m => m.type.dim).sum + r by omega, ih]

theorem calc_congr {s : Sys K} {d d' : Data K} (hd : ∀ i, 1 ≤ i → i < s.n → d.oMi i = d'.oMi i) {m : RCM K} (h1 : m.j1 < s.n)
    (h2 : m.j2 < s.n) : m.calc d = m.calc d' := by
  have e : ∀ j (P : SE3 K), j < s.n → (if j > 0 then d.oMi j * P else P) = if j > 0 then d'.oMi j * P else P := by
    intro j P hj
    split
    · rename_i hp; rw [hd j hp hj]
    · rfl
  unfold RCM.calc
  rw [e _ _ h1, e _ _ h2]

/-- the force of a constraint in the list -/
theorem contactForces_at (sol : ℕ → K) (pre : List (RCM K)) (m : RCM K) (post : List (RCM K)) :
    (contactForces sol (pre ++ m :: post))[pre.length]? = some (m.forceAt sol (pre.map fun m => m.type.dim).sum) := by
  have key : ∀ (l : List (RCM K)) (y : List (Force K) × ℕ),
      let z := l.foldl (fun (y : List (Force K) × ℕ) m => (y.1 ++ [m.forceAt sol y.2], y.2 + m.type.dim)) y
      z.2 = y.2 + (l.map fun m => m.type.dim).sum ∧ z.1.length = y.1.length + l.length ∧
        ∀ i, i < y.1.length → z.1[i]? = y.1[i]? := by
    intro l
    induction l with
    | nil => intro y; exact ⟨rfl, rfl, fun _ _ => rfl⟩
    | cons m l ih =>
      intro y
      obtain ⟨a, b, c⟩ := ih (y.1 ++ [m.forceAt sol y.2], y.2 + m.type.dim)
      rw [List.foldl_cons]
      dsimp only at a b c ⊢
      refine ⟨by rw [a, List.map_cons, List.sum_cons]; omega, ?_, fun i hi => ?_⟩
      · rw [b, List.length_append, List.length_cons, List.length_cons, List.length_nil]; omega
      · rw [c i (by rw [List.length_append]; omega), List.getElem?_append_left hi]
  unfold contactForces
  rw [List.foldl_append, List.foldl_cons]
  obtain ⟨a, b, -⟩ := key pre ([], 0)
  dsimp only at a b
  rw [Nat.zero_add] at a
  rw [List.length_nil, Nat.zero_add] at b
  rw [(key post _).2.2 pre.length (by dsimp only; rw [List.length_append, b, List.length_cons, List.length_nil]; omega)]
  dsimp only
  rw [List.getElem?_append_right (by rw [b]), b, Nat.sub_self, a]
  rfl

end

/-! ## what the passes leave -/

section
variable [Field K] [LinearOrder K] [IsStrictOrderedRing K] [HasEps K] {s : Sys K}

theorem rcPasses_ok (h : s.Packed) {q : ℕ → K} (hq : s.At q) (v : ℕ → K) (d d' : Data K) :
    let x := rcPasses s d q v
    (∀ i, i < s.n → x.ov i = s.oV q v i) ∧ (∀ i, i < s.n → x.oa i = s.wA 0 q v (fun _ => 0) i) ∧
    (∀ i, 1 ≤ i → i < s.n → x.oMi i = s.oM q i) ∧ ∀ r, r < s.nv → x.nle r = (nonLinearEffects s d' q v).nle r := by
  intro x
  set d0 : Data K := { d with oYcrb := upd d.oYcrb 0 0, of := upd d.of 0 0, oa := upd d.oa 0 0, ov := upd d.ov 0 0 } with hd0
  have hF := rcFwd_true_ok h hq v (d := d0) (upd_self d.ov 0 0) (upd_self d.oa 0 0)
  obtain ⟨b1, b2, b3, b4⟩ := rcBwd_true_ok h hF
  have ex : x = rcAg s (addArmature s (bwd (rcBwd s true) s.n (fwd (rcFwd s true q v) s.n d0))) := rfl
  have e1 : x.ov = (bwd (rcBwd s true) s.n (fwd (rcFwd s true q v) s.n d0)).ov := rfl
  have e2 : x.oa = (bwd (rcBwd s true) s.n (fwd (rcFwd s true q v) s.n d0)).oa := rfl
  have e3 : x.oMi = (bwd (rcBwd s true) s.n (fwd (rcFwd s true q v) s.n d0)).oMi := rfl
  have e4 : x.nle = (bwd (rcBwd s true) s.n (fwd (rcFwd s true q v) s.n d0)).nle := rfl
  clear_value x
  refine ⟨fun i hi => ?_, fun i hi => ?_, fun i h1 hi => ?_, fun r hr => ?_⟩
  · rw [e1, b1]
    rcases Nat.eq_zero_or_pos i with rfl | h1
    · rw [hF.v0, oV_zero']
    · exact hF.ov i h1 hi
  · rw [e2, b2, hF.oa i hi]
  · rw [e3, b3, (hF.pl i h1 hi).2.1]
  · have ha := C12_affine h.wf Data.zero d' hq v (fun _ => 0) (Sys.unit r)
    rw [Sys.dotv_unit hr, Sys.dotv_unit hr, Sys.massForm_zero_right h.par, zero_add] at ha
    rw [← ha, ← rneaFext_zero h.wf Data.zero Data.zero hq v _ hr, e4]
    obtain ⟨i, k, i1, hi, hk, rfl⟩ := h.cover hr
    rw [rneaFext_entry h hq _ v _ _ i1 hi hk, b4 i i1 hi k hk]
    simp

/-- the world acceleration is affine in the joint acceleration -/
theorem Sys.wA_split (hp : ParOk s.par s.n) {q : ℕ → K} (hq : s.At q) (a0 : Motion K) (v a : ℕ → K) : ∀ i, i < s.n →
    s.wA a0 q v a i = s.wA a0 q v (fun _ => 0) i + s.oV q a i := by
  intro i hi
  refine Sys.joint_ind s hp ?_ ?_ i hi <;> clear hi i
  · rw [oV_zero']
    unfold Sys.wA
    rw [s.A_zero, s.A_zero, add_zero]
  · intro i h1 hi ih
    rw [Sys.wA_step hp hq a0 v a h1 hi, Sys.wA_step hp hq a0 v (fun _ => 0) h1 hi, Sys.oV_step' hp hq a h1 hi, ih, Sys.oj_zero]
    abel

/-! ## the proximal loop -/

theorem infNorm_succ (n : ℕ) (x : ℕ → K) : infNorm (n + 1) x = max (infNorm n x) |x n| := by
  unfold infNorm upTo
  rw [List.range_succ, List.foldl_append]
  rfl

theorem infNorm_nonneg (n : ℕ) (x : ℕ → K) : 0 ≤ infNorm n x := by
  induction n with
  | zero => exact le_refl 0
  | succ n ih => rw [infNorm_succ]; exact le_max_of_le_left ih

theorem le_infNorm (n : ℕ) (x : ℕ → K) : ∀ i < n, |x i| ≤ infNorm n x := by
  induction n with
  | zero => intro i hi; omega
  | succ n ih =>
    intro i hi
    rw [infNorm_succ]
    by_cases e : i = n
    · subst e; exact le_max_right _ _
    · exact le_max_of_le_left (ih i (by omega))

theorem infNorm_sq (n : ℕ) (x : ℕ → K) : infNorm n x * infNorm n x ≤ ∑ i ∈ range n, x i * x i := by
  induction n with
  | zero => simp [infNorm, upTo]
  | succ n ih =>
    rw [infNorm_succ, sum_range_succ]
    have h1 : 0 ≤ ∑ i ∈ range n, x i * x i := sum_nonneg fun i _ => mul_self_nonneg _
    rcases le_total (infNorm n x) |x n| with hle | hle
    · rw [max_eq_right hle, abs_mul_abs_self]; linarith
    · rw [max_eq_left hle]; have := mul_self_nonneg (x n); linarith

/-- what solving with the decomposition means -/
structure SolveOk (s : Sys K) (q : ℕ → K) (t : CTab) (c : Chol K) (J : ℕ → ℕ → K) (mu : K) : Prop where
  con : ∀ b : ℕ → K, ∀ r < t.nc, ∑ k ∈ range s.nv, J r k * t.solve c b (t.nc + k) - mu * t.solve c b r = b r
  dyn : ∀ b : ℕ → K, ∀ r < s.nv, s.massForm q (Sys.unit r) (fun k => t.solve c b (t.nc + k))
    + ∑ i ∈ range t.nc, J i r * t.solve c b i = b (t.nc + r)

/-- the equations after a turn of the loop that started from the multipliers `p` -/
structure Turn (s : Sys K) (q : ℕ → K) (nc : ℕ) (J : ℕ → ℕ → K) (f rhs : ℕ → K) (mu : K) (p l a : ℕ → K) : Prop where
  dyn : ∀ r < s.nv, s.massForm q (Sys.unit r) a = f r + ∑ i ∈ range nc, J i r * l i
  con : ∀ i < nc, ∑ k ∈ range s.nv, J i k * a k - rhs i = mu * (p i - l i)

theorem proxStep_turn {q : ℕ → K} {t : CTab} {x : CDyn K} {J : ℕ → ℕ → K} {mu : K} (hs : SolveOk s q t x.chol J mu)
    (ht : t.nv = s.nv) (tau : ℕ → K) :
    let y := proxStep t mu tau x
    y.data = x.data ∧ y.chol = x.chol ∧ y.rhs = x.rhs ∧ y.iter = x.iter + 1 ∧ y.prox = (fun r => -y.sol r) ∧
    y.relRes = infNorm t.nc (fun r => y.sol r + x.prox r) ∧
    Turn s q t.nc J (fun r => tau r - x.data.nle r) x.rhs mu x.prox (fun r => -y.sol r) (fun r => y.sol (t.nc + r)) := by
  intro y
  set b := putSeg (putSeg x.sol 0 t.nc (fun r => x.rhs r + x.prox r * mu)) t.nc t.nv (fun r => tau r - x.data.nle r) with hb
  have ey : y.sol = t.solve x.chol b := rfl
  have eb1 : ∀ r < t.nc, b r = x.rhs r + x.prox r * mu := by
    intro r hr
    rw [hb, putSeg_out _ _ (by omega)]
    have := putSeg_at x.sol (i := 0) (fun r => x.rhs r + x.prox r * mu) hr
    rwa [Nat.zero_add] at this
  have eb2 : ∀ r < s.nv, b (t.nc + r) = tau r - x.data.nle r := by
    intro r hr
    rw [hb, putSeg_at _ _ (by omega)]
  refine ⟨rfl, rfl, rfl, rfl, rfl, rfl, ⟨fun r hr => ?_, fun i hi => ?_⟩⟩
  · have := hs.dyn b r hr
    rw [eb2 r hr] at this
    rw [ey, ← this]
    simp only [mul_neg, sum_neg_distrib]
    ring
  · have := hs.con b i hi
    rw [eb1 i hi] at this
    rw [ey]
    linear_combination this

/-- **Monotonicity of one turn.** -/
theorem Turn.mono (h : s.Packed) {q : ℕ → K} {nc : ℕ} {J : ℕ → ℕ → K} {f rhs : ℕ → K} {mu : K} {p l a l' a' : ℕ → K}
    (hpsd : ∀ w : ℕ → K, 0 ≤ s.massForm q w w) (hmu : 0 < mu) (ht : Turn s q nc J f rhs mu p l a)
    (he : Turn s q nc J f rhs 0 l' l' a') :
    ∑ i ∈ range nc, (l i - l' i) * (l i - l' i) + ∑ i ∈ range nc, (l i - p i) * (l i - p i)
      ≤ ∑ i ∈ range nc, (p i - l' i) * (p i - l' i) := by
  have key : s.massForm q (fun r => a r + -1 * a' r) (fun r => a r + -1 * a' r)
      = mu * ∑ i ∈ range nc, (l i - l' i) * (p i - l i) := by
    have e1 : ∀ r < s.nv, s.massForm q (fun r => a r + -1 * a' r) (Sys.unit r) = ∑ i ∈ range nc, J i r * (l i - l' i) := by
      intro r hr
      rw [Sys.massForm_symm, Sys.massForm_add_right h.par, Sys.massForm_smul_right h.par, ht.dyn r hr, he.dyn r hr]
      simp only [mul_sub, sum_sub_distrib]
      ring
    rw [Sys.massForm_coord h.wf]
    rw [sum_congr rfl fun r hr => by rw [e1 r (mem_range.1 hr), sum_mul], sum_comm, mul_sum]
    refine sum_congr rfl fun i hi => ?_
    have c1 := ht.con i (mem_range.1 hi)
    have c2 := he.con i (mem_range.1 hi)
    have : ∑ k ∈ range s.nv, J i k * (a k + -1 * a' k) = mu * (p i - l i) := by
      simp only [mul_add, sum_add_distrib]
      have : ∑ k ∈ range s.nv, J i k * (-1 * a' k) = -∑ k ∈ range s.nv, J i k * a' k := by
        rw [← sum_neg_distrib]; exact sum_congr rfl fun k _ => by ring
      rw [this]
      linear_combination c1 - c2
    calc ∑ k ∈ range s.nv, J i k * (l i - l' i) * (a k + -1 * a' k)
        = (l i - l' i) * ∑ k ∈ range s.nv, J i k * (a k + -1 * a' k) := by
          rw [mul_sum]; exact sum_congr rfl fun k _ => by ring
      _ = _ := by rw [this]; ring
  have h0 : 0 ≤ ∑ i ∈ range nc, (l i - l' i) * (p i - l i) := by
    have := hpsd (fun r => a r + -1 * a' r)
    rw [key] at this
    exact nonneg_of_mul_nonneg_right this hmu
  have : ∑ i ∈ range nc, (p i - l' i) * (p i - l' i) = ∑ i ∈ range nc, (l i - l' i) * (l i - l' i)
      + ∑ i ∈ range nc, (l i - p i) * (l i - p i) + 2 * ∑ i ∈ range nc, (l i - l' i) * (p i - l i) := by
    rw [mul_sum, ← sum_add_distrib, ← sum_add_distrib]
    exact sum_congr rfl fun i _ => by ring
  rw [this]
  linarith

/-- the loop -/
theorem proxLoop_spec (h : s.Packed) {q : ℕ → K} {t : CTab} {J : ℕ → ℕ → K} {st : ProxSet K}
    (ht : t.nv = s.nv) (tau : ℕ → K) (hpsd : ∀ w : ℕ → K, 0 ≤ s.massForm q w w) (n : ℕ) : ∀ x : CDyn K,
    SolveOk s q t x.chol J st.mu → 1 ≤ n →
    let y := proxLoop t st tau n x
    y.data = x.data ∧ y.chol = x.chol ∧ y.rhs = x.rhs ∧ (x.iter < y.iter ∧ y.iter ≤ x.iter + n) ∧
    (y.absRes ≤ st.absAcc ∨ y.relRes ≤ st.relAcc ∨ y.iter = x.iter + n) ∧
    (∃ p, y.relRes = infNorm t.nc (fun r => y.sol r + p r) ∧
      Turn s q t.nc J (fun r => tau r - x.data.nle r) x.rhs st.mu p (fun r => -y.sol r) (fun r => y.sol (t.nc + r))) ∧
    ∀ l a, 0 < st.mu → Turn s q t.nc J (fun r => tau r - x.data.nle r) x.rhs 0 l l a →
      ∑ i ∈ range t.nc, (-y.sol i - l i) * (-y.sol i - l i) ≤ ∑ i ∈ range t.nc, (x.prox i - l i) * (x.prox i - l i) ∧
      (¬ (y.absRes ≤ st.absAcc ∨ y.relRes ≤ st.relAcc) → 0 ≤ st.relAcc →
        ∑ i ∈ range t.nc, (-y.sol i - l i) * (-y.sol i - l i) + n * (st.relAcc * st.relAcc)
          < ∑ i ∈ range t.nc, (x.prox i - l i) * (x.prox i - l i)) := by
  induction n with
  | zero => intro x _ hn; omega
  | succ n ih =>
    intro x hs _
    obtain ⟨e1, e2, e3, e4, e5, e6, e7⟩ := proxStep_turn hs ht tau
    set z := proxStep t st.mu tau x with hz
    have hone : ∀ l a, 0 < st.mu → Turn s q t.nc J (fun r => tau r - x.data.nle r) x.rhs 0 l l a →
        ∑ i ∈ range t.nc, (-z.sol i - l i) * (-z.sol i - l i) + z.relRes * z.relRes
          ≤ ∑ i ∈ range t.nc, (x.prox i - l i) * (x.prox i - l i) := by
      intro l a hmu he
      have h1 := e7.mono h hpsd hmu he
      have h2 := infNorm_sq t.nc (fun r => z.sol r + x.prox r)
      rw [← e6] at h2
      have h3 : ∑ i ∈ range t.nc, (-z.sol i - x.prox i) * (-z.sol i - x.prox i)
          = ∑ i ∈ range t.nc, (z.sol i + x.prox i) * (z.sol i + x.prox i) := sum_congr rfl fun i _ => by ring
      linarith
    have hrr : ∀ y : CDyn K, ¬ (y.absRes ≤ st.absAcc ∨ y.relRes ≤ st.relAcc) → 0 ≤ st.relAcc →
        st.relAcc * st.relAcc < y.relRes * y.relRes := by
      intro y hn h0
      have : st.relAcc < y.relRes := lt_of_not_ge fun hle => hn (Or.inr hle)
      nlinarith
    have eL : proxLoop t st tau (n + 1) x
        = if z.absRes ≤ st.absAcc ∨ z.relRes ≤ st.relAcc then z else proxLoop t st tau n z := rfl
    intro y
    have ey : y = _ := eL
    clear_value y
    by_cases hstop : z.absRes ≤ st.absAcc ∨ z.relRes ≤ st.relAcc
    · rw [if_pos hstop] at ey
      rw [ey]
      refine ⟨e1, e2, e3, ⟨by rw [e4]; omega, by rw [e4]; omega⟩, by tauto, ⟨x.prox, e6, e7⟩, fun l a hmu he => ?_⟩
      have := hone l a hmu he
      have h2 := mul_self_nonneg z.relRes
      exact ⟨by linarith, fun hn => absurd hstop hn⟩
    · rw [if_neg hstop] at ey
      rcases Nat.eq_zero_or_pos n with rfl | hn
      · have ez : y = z := ey
        rw [ez]
        refine ⟨e1, e2, e3, ⟨by rw [e4]; omega, by rw [e4]⟩, Or.inr (Or.inr e4), ⟨x.prox, e6, e7⟩, fun l a hmu he => ?_⟩
        have := hone l a hmu he
        have h2 := mul_self_nonneg z.relRes
        refine ⟨by linarith, fun hn h0 => ?_⟩
        have := hrr z hn h0
        push_cast
        linarith
      · obtain ⟨f1, f2, f3, f4, f5, f6, f7⟩ := ih z (by rw [e2]; exact hs) hn
        rw [← ey, e1, e3] at f6 f7
        rw [← ey] at f1 f2 f3 f4 f5
        refine ⟨f1.trans e1, f2.trans e2, f3.trans e3, ⟨by omega, by omega⟩, ?_, f6, fun l a hmu he => ?_⟩
        · rcases f5 with f | f | f
          · exact Or.inl f
          · exact Or.inr (Or.inl f)
          · exact Or.inr (Or.inr (by omega))
        · obtain ⟨g1, g2⟩ := f7 l a hmu he
          have := hone l a hmu he
          have h2 := mul_self_nonneg z.relRes
          rw [e5] at g1 g2
          refine ⟨by linarith, fun hn h0 => ?_⟩
          have g := g2 hn h0
          have := hrr z hstop h0
          push_cast
          linarith

/-- solving, from the factorisation of the constraints of the model -/
theorem solveOk_of (h : s.Packed) (hf : s.Full) (hc : crbaCheck s.par s.n = true) (hms : s.MassesOk) (d1 : Data K)
    {q : ℕ → K} (hq : s.At q) (hy : s.Heavy q) {ms : List (RCM K)} (hm : Made s ms) {T0 : ℕ → ℕ} {d x : Chol K} {mu : K}
    (hU : UnitTri (totalSize ms + s.nv) d.U) {D d0 : Data K} (h0 : s.BranchZero d0.M)
    (e1 : D.M = (crbaWorld s d0 q).M) (e2 : D.J = (crbaWorld s d0 q).J) (e3 : D.oMi = (crbaWorld s d0 q).oMi)
    (hx : (CTab.alloc s ms T0).compute s D ms (fun _ => mu) d = some x)
    (hmu : 0 < mu ∨ (0 ≤ mu ∧ FullRank s.nv (totalSize ms) (stackJac s (computeJointJacobians s d1 q) ms))) :
    SolveOk s q (CTab.alloc s ms T0) x (stackJac s (computeJointJacobians s d1 q) ms) mu := by
  rw [compute_congr e1 e2 e3] at hx
  have key : ∀ b : ℕ → K, _ := fun b => (C60_crba h hf hc hms d0 d1 hq h0 hy hm hU hx
    (hmu.imp (fun h _ _ => h) (fun h => ⟨fun _ _ => h.1, h.2⟩)) b (fun r => b (totalSize ms + r))
    ((CTab.alloc s ms T0).solve x b) (fun r => (CTab.alloc s ms T0).solve x b (totalSize ms + r))).2
  have eb : ∀ b : ℕ → K, (fun r => if r < totalSize ms then b r else b (totalSize ms + (r - totalSize ms))) = b := by
    intro b; funext r
    split
    · rfl
    · congr 1; omega
  have key2 : ∀ b : ℕ → K, _ := fun b => key b (by rw [eb]; exact ⟨fun _ _ => rfl, fun _ _ => rfl⟩)
  exact ⟨fun b => (key2 b).1, fun b => (key2 b).2⟩

end
end Pin
