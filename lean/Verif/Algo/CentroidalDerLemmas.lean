import Verif.Algo.CentroidalDerivatives
import Verif.Algo.CentroidalDerVariation
import Verif.Algo.RneaDerLemmas

/-! # What the passes of the centroidal derivatives compute -/

set_option linter.unusedSectionVars false

namespace Pin
open Finset
universe u
variable {K : Type u} [Field K] {s : Sys K}

/-! ## forward pass -/

theorem cdFwd_eq (q v a : ℕ → K) (i : ℕ) (d : Data K) :
    cdFwd s q v a i d = { fkdStep s q v a i d with
      oYcrb := (cdFwd s q v a i d).oYcrb
      oh := (cdFwd s q v a i d).oh
      of := (cdFwd s q v a i d).of
      dVdq := (cdFwd s q v a i d).dVdq
      dAdq := (cdFwd s q v a i d).dAdq
      dAdv := (cdFwd s q v a i d).dAdv
      doYcrb := (cdFwd s q v a i d).doYcrb } := by
  unfold cdFwd fkdStep
  by_cases hp : s.par i > 0
  · simp only [hp, if_true]
  · simp only [hp, if_false]

theorem cdFwd_bodies (q v a : ℕ → K) (i : ℕ) (d : Data K) :
    let e := fkdStep s q v a i d
    let Y := (s.Y i).act (e.oMi i)
    let x := cdFwd s q v a i d
    x.oYcrb = upd d.oYcrb i Y ∧ x.oh = upd d.oh i (Y.mul (e.ov i)) ∧
    x.of = upd d.of i (Y.mul (e.oa i) + (e.ov i).crossF (Y.mul (e.ov i))) ∧
    x.doYcrb = upd d.doYcrb i (addForceCross (Y.mul (e.ov i)) (Y.variation (e.ov i))) := by
  unfold cdFwd fkdStep
  by_cases hp : s.par i > 0
  · simp [hp, upd_upd]
  · simp [hp, upd_upd]

theorem cdFwd_cols (q v a : ℕ → K) (i : ℕ) (d : Data K) {k : ℕ} (hk : k < s.jnv i) (hpi : s.par i < i) :
    let e := fkdStep s q v a i d
    let x := cdFwd s q v a i d
    let J := e.J (s.iv i + k)
    x.dVdq (s.iv i + k) = (if s.par i > 0 then (e.ov (s.par i)).cross J else 0) ∧
    x.dAdq (s.iv i + k) = (e.oa (s.par i)).cross J
      + (if s.par i > 0 then (e.ov (s.par i)).cross ((e.ov (s.par i)).cross J) else 0) ∧
    x.dAdv (s.iv i + k) = e.dJ (s.iv i + k) + (if s.par i > 0 then (e.ov (s.par i)).cross J else 0) := by
  unfold cdFwd fkdStep
  by_cases hp : s.par i > 0
  · simp [hp, putSeg_at _ _ hk]
  · simp [hp, putSeg_at _ _ hk]

theorem cdFwd_out (q v a : ℕ → K) (i : ℕ) (d : Data K) {c : ℕ} (hc : ¬ (s.iv i ≤ c ∧ c < s.iv i + s.jnv i)) :
    (cdFwd s q v a i d).dVdq c = d.dVdq c ∧ (cdFwd s q v a i d).dAdq c = d.dAdq c ∧
      (cdFwd s q v a i d).dAdv c = d.dAdv c := by
  unfold cdFwd
  by_cases hp : s.par i > 0
  · simp only [hp, if_true, putSeg_out _ _ hc, and_self]
  · simp only [hp, if_false, putSeg_out _ _ hc, and_self]

theorem fkdStep_oa0 (q v a : ℕ → K) {i : ℕ} (h1 : 1 ≤ i) (d : Data K) :
    (fkdStep s q v a i d).oa 0 = d.oa 0 := by
  have : (fkdStep s q v a i d).oa = upd d.oa i ((fkdStep s q v a i d).oa i) := by
    unfold fkdStep
    by_cases hp : s.par i > 0
    · simp only [hp, if_true, upd_self]
    · simp only [hp, if_false, upd_self]
  rw [this, upd_ne _ _ (by omega)]

/-- what the forward pass leaves, joints below `m` -/
structure CdF (s : Sys K) (q v a : ℕ → K) (m : ℕ) (d : Data K) : Prop extends FkdOk s q v a m d where
  oa0 : d.oa 0 = 0
  Y : ∀ i, 1 ≤ i → i < m → d.oYcrb i = (s.Y i).act (s.oM q i)
  oh : ∀ i, 1 ≤ i → i < m → d.oh i = (s.oI q i).mulMF (s.oV q v i)
  of : ∀ i, 1 ≤ i → i < m → d.of i = s.oF 0 q v a (fun _ => 0) i
  B : ∀ i, 1 ≤ i → i < m → d.doYcrb i = s.dB q v i
  dVq : ∀ i, 1 ≤ i → i < m → ∀ k, k < s.jnv i → d.dVdq (s.iv i + k) = s.dVq q v i k
  dAq : ∀ i, 1 ≤ i → i < m → ∀ k, k < s.jnv i → d.dAdq (s.iv i + k) = s.noGrav.dAq q v a i k
  dAv : ∀ i, 1 ≤ i → i < m → ∀ k, k < s.jnv i → d.dAdv (s.iv i + k) = s.dAv q v i k

theorem Sys.noGrav_dAq (q v a : ℕ → K) (j l : ℕ) : s.noGrav.dAq q v a j l =
    (s.wA 0 q v a (s.par j)).cross (s.Jc q j l) + (s.oV q v (s.par j)).cross (s.dVq q v j l) := by
  unfold Sys.dAq
  rw [Sys.noGrav_neg, Sys.noGrav_wA, Sys.noGrav_oV, Sys.noGrav_Jc, Sys.noGrav_dVq, Sys.noGrav_par]

theorem cdFwd_step (h : s.Packed) {q : ℕ → K} (hq : s.At q) (v a : ℕ → K) {i : ℕ} (h1 : 1 ≤ i)
    (hi : i < s.n) {d : Data K} (ih : CdF s q v a i d) : CdF s q v a (i + 1) (cdFwd s q v a i d) := by
  have hp := h.par
  have hpi := hp.2 i h1 hi
  have ht := fkd_step h hq v a h1 hi ih.toFkdOk
  obtain ⟨b2, b4, b5, b6⟩ := cdFwd_bodies (s := s) q v a i d
  have eo : (fkdStep s q v a i d).oMi i = s.oM q i := (ht.pl i h1 (by omega)).2.1
  have ev : (fkdStep s q v a i d).ov i = s.oV q v i := ht.ov i h1 (by omega)
  have ea : (fkdStep s q v a i d).oa i = s.wA 0 q v a i := ht.oa i h1 (by omega)
  have ea0 : (fkdStep s q v a i d).oa 0 = 0 := (fkdStep_oa0 q v a h1 d).trans ih.oa0
  have evp : s.par i > 0 → (fkdStep s q v a i d).ov (s.par i) = s.oV q v (s.par i) :=
    fun hz => ht.ov _ hz (by omega)
  have egp : (fkdStep s q v a i d).oa (s.par i) = s.wA 0 q v a (s.par i) := by
    rcases Nat.eq_zero_or_pos (s.par i) with e | e
    · rw [e, ea0, Sys.wA_zero]
    · exact ht.oa _ e (by omega)
  have ev0 : ∀ x : Motion K, ¬ s.par i > 0 → (s.oV q v (s.par i)).cross x = 0 := by
    intro x hz
    rw [show s.par i = 0 by omega, Sys.oV_zero, Motion.zero_cross]
  have cV : ∀ k, k < s.jnv i → (cdFwd s q v a i d).dVdq (s.iv i + k) = s.dVq q v i k := by
    intro k hk
    rw [(cdFwd_cols q v a i d hk hpi).1, ht.J i h1 (by omega) k hk]
    unfold Sys.dVq
    split
    · rename_i hz; rw [evp hz]
    · rename_i hz; rw [ev0 _ hz]
  have cA : ∀ k, k < s.jnv i → (cdFwd s q v a i d).dAdq (s.iv i + k) = s.noGrav.dAq q v a i k := by
    intro k hk
    rw [(cdFwd_cols q v a i d hk hpi).2.1, ht.J i h1 (by omega) k hk, egp, Sys.noGrav_dAq]
    unfold Sys.dVq
    split
    · rename_i hz; rw [evp hz]
    · rename_i hz; rw [ev0 _ hz]
  have cD : ∀ k, k < s.jnv i → (cdFwd s q v a i d).dAdv (s.iv i + k) = s.dAv q v i k := by
    intro k hk
    rw [(cdFwd_cols q v a i d hk hpi).2.2, ht.dJ i h1 (by omega) k hk, ht.J i h1 (by omega) k hk]
    unfold Sys.dAv Sys.dVq
    split
    · rename_i hz; rw [evp hz]
    · rename_i hz; rw [ev0 _ hz]
  have ne : ∀ j, 1 ≤ j → j < s.n → j ≠ i → ∀ k, k < s.jnv j → ¬ (s.iv i ≤ s.iv j + k ∧ s.iv j + k < s.iv i + s.jnv i) := by
    rintro j j1 hj e k hk ⟨x, y⟩
    exact e (h.inj j1 hj h1 hi hk (l := s.iv j + k - s.iv i) (by omega) (by omega)).1
  have hfk : FkdOk s q v a (i + 1) (cdFwd s q v a i d) := by
    rw [cdFwd_eq]
    exact ⟨⟨ht.pl, ht.vel, ht.J, ht.ov, ht.dJ⟩, ht.acc, ht.oa⟩
  refine ⟨hfk, ?_, ?_, ?_, ?_, ?_, ?_, ?_, ?_⟩
  · rw [cdFwd_eq]; exact ea0
  · intro j j1 hj
    rw [b2]
    by_cases e : j = i
    · subst e; rw [upd_self, eo]
    · rw [upd_ne _ _ e]; exact ih.Y j j1 (by omega)
  · intro j j1 hj
    rw [b4]
    by_cases e : j = i
    · subst e; rw [upd_self, eo, ev]; unfold Sys.oI; rw [Inertia.matrix_mulMF]
    · rw [upd_ne _ _ e]; exact ih.oh j j1 (by omega)
  · intro j j1 hj
    by_cases e : j = i
    · subst e
      rw [b5, upd_self, eo, ev, ea, Sys.oF_eq hp hq _ _ _ _ hi, SE3.actF_zero, sub_zero]
      unfold Sys.oI
      rw [Inertia.matrix_mulMF, Inertia.matrix_mulMF]
    · rw [b5, upd_ne _ _ e]; exact ih.of j j1 (by omega)
  · intro j j1 hj
    rw [b6]
    by_cases e : j = i
    · subst e; rw [upd_self, eo, ev]; rfl
    · rw [upd_ne _ _ e]; exact ih.B j j1 (by omega)
  · intro j j1 hj k hk
    by_cases e : j = i
    · subst e; exact cV k hk
    · rw [(cdFwd_out q v a i d (ne j j1 (by omega) e k hk)).1]; exact ih.dVq j j1 (by omega) k hk
  · intro j j1 hj k hk
    by_cases e : j = i
    · subst e; exact cA k hk
    · rw [(cdFwd_out q v a i d (ne j j1 (by omega) e k hk)).2.1]; exact ih.dAq j j1 (by omega) k hk
  · intro j j1 hj k hk
    by_cases e : j = i
    · subst e; exact cD k hk
    · rw [(cdFwd_out q v a i d (ne j j1 (by omega) e k hk)).2.2]; exact ih.dAv j j1 (by omega) k hk

theorem cdFwd_ok (h : s.Packed) {q : ℕ → K} (hq : s.At q) (v a : ℕ → K) {d : Data K} (h0 : d.oa 0 = 0) :
    CdF s q v a s.n (fwd (cdFwd s q v a) s.n d) := by
  apply fwd_ind (P := fun k (d : Data K) => CdF s q v a k d) h.par.1
  · refine ⟨⟨?_, ?_, ?_⟩, h0, ?_, ?_, ?_, ?_, ?_, ?_, ?_⟩
    · constructor <;> intro i a b <;> omega
    all_goals (intro i a b; omega)
  · intro i d h1 hi ih
    exact cdFwd_step h hq v a h1 hi ih

/-! ## backward passes -/

variable [LinearOrder K] [IsStrictOrderedRing K] [HasEps K]

/-- sums with the universe -/
theorem sum_acc0 {M : Type*} [AddCommGroup M] (hp : ParOk s.par s.n) (x : ℕ → M) :
    IsAcc s.par s.n (fun _ y => y) (fun i => if i = 0 then 0 else x i) (fun i => ∑ b ∈ subtree s.par s.n i, x b) :=
  IsAcc.of_sum hp (fun _ b => x b) (fun i h1 _ => if_neg (by omega)) (fun _ _ _ => rfl)

theorem acc_root {M : Type*} [AddCommGroup M] (hp : ParOk s.par s.n) {x : ℕ → M} {f : ℕ → M}
    (h : RAcc s.par s.n (fun _ y => y) (fun i => if i = 0 then 0 else x i) (fun i => ∑ b ∈ subtree s.par s.n i, x b) 1 f) :
    f 0 = ∑ b ∈ Ico 1 s.n, x b := by
  have := h.root
  rw [if_pos rfl, zero_add] at this
  rw [this]
  exact sum_root hp (T := fun _ y => y) (fun _ b => x b) (fun _ _ _ => rfl)

theorem acc_start {M : Type*} [AddCommGroup M] {x f : ℕ → M} (h0 : f 0 = 0) (h : ∀ i, 1 ≤ i → i < s.n → f i = x i) :
    RAcc s.par s.n (fun _ y => y) (fun i => if i = 0 then 0 else x i) (fun i => ∑ b ∈ subtree s.par s.n i, x b) s.n f := by
  refine RAcc.start _ ?_
  intro i hi; rcases Nat.eq_zero_or_pos i with rfl | h1
  · rw [h0, if_pos rfl]
  · rw [h i h1 hi, if_neg (by omega)]

/-- state in the backward loop of `computeCentroidalDynamicsDerivatives` -/
structure CdB (s : Sys K) (q v a : ℕ → K) (k : ℕ) (d : Data K) : Prop where
  J : JOk s q s.n d.J
  dVq : ∀ i, 1 ≤ i → i < s.n → ∀ k, k < s.jnv i → d.dVdq (s.iv i + k) = s.dVq q v i k
  dAq : ∀ i, 1 ≤ i → i < s.n → ∀ k, k < s.jnv i → d.dAdq (s.iv i + k) = s.noGrav.dAq q v a i k
  dAv : ∀ i, 1 ≤ i → i < s.n → ∀ k, k < s.jnv i → d.dAdv (s.iv i + k) = s.dAv q v i k
  Y : YB s q k d.oYcrb
  accB : PAcc s.par s.n (fun _ x => x) (s.dB q v) k d.doYcrb
  accF : RAcc s.par s.n (fun _ y => y) (fun i => if i = 0 then 0 else s.oF 0 q v a (fun _ => 0) i)
    (fun i => ∑ b ∈ subtree s.par s.n i, s.oF 0 q v a (fun _ => 0) b) k d.of
  accH : RAcc s.par s.n (fun _ y => y) (fun i => if i = 0 then 0 else (s.oI q i).mulMF (s.oV q v i))
    (fun i => ∑ b ∈ subtree s.par s.n i, (s.oI q b).mulMF (s.oV q v b)) k d.oh
  Fa : ∀ j, 1 ≤ j → k ≤ j → j < s.n → ∀ l, l < s.jnv j → d.dFda (s.iv j + l) = s.fA q j l
  Fq : ∀ j, 1 ≤ j → k ≤ j → j < s.n → ∀ l, l < s.jnv j → d.dFdq (s.iv j + l) = s.noGrav.fQ q v a (fun _ => 0) j l
  Fv : ∀ j, 1 ≤ j → k ≤ j → j < s.n → ∀ l, l < s.jnv j → d.dFdv (s.iv j + l) = s.fV q v j l
  Hq : ∀ j, 1 ≤ j → k ≤ j → j < s.n → ∀ l, l < s.jnv j → d.dHdq (s.iv j + l) = s.hQ q v j l
  tau : ∀ j, 1 ≤ j → k ≤ j → j < s.n → ∀ l, l < s.jnv j →
    d.tau (s.iv j + l) = (s.Jc q j l).dot (s.noGrav.oFm q v a (fun _ => 0) j)

theorem cdBwd_same (i : ℕ) (d : Data K) :
    (cdBwd s i d).J = d.J ∧ (cdBwd s i d).dVdq = d.dVdq ∧ (cdBwd s i d).dAdq = d.dAdq ∧
      (cdBwd s i d).dAdv = d.dAdv ∧
    (cdBwd s i d).oYcrb = upd d.oYcrb (s.par i) (Inertia.addAssign (d.oYcrb (s.par i)) (d.oYcrb i)) ∧
    (cdBwd s i d).doYcrb = upd d.doYcrb (s.par i) (d.doYcrb (s.par i) + d.doYcrb i) ∧
    (cdBwd s i d).oh = upd d.oh (s.par i) (d.oh (s.par i) + d.oh i) ∧
    (cdBwd s i d).of = upd d.of (s.par i) (d.of (s.par i) + d.of i) := by
  unfold cdBwd
  by_cases hz : s.par i > 0
  · simp only [hz, if_true, and_self]
  · simp only [hz, if_false, and_self]

theorem cdBwd_cols (i : ℕ) (d : Data K) {k : ℕ} (hk : k < s.jnv i) (hpi : s.par i < i) :
    let e := cdBwd s i d
    let c := s.iv i + k
    e.tau c = (d.J c).dot (d.of i) ∧ e.dFda c = (d.oYcrb i).mul (d.J c) ∧
    e.dFdq c = (if s.par i > 0 then (d.doYcrb i).mulMF (d.dVdq c) + (d.oYcrb i).mul (d.dAdq c)
      else (d.oYcrb i).mul (d.dAdq c)) + (d.J c).crossF (d.of i) ∧
    e.dFdv c = (d.doYcrb i).mulMF (d.J c) + (d.oYcrb i).mul (d.dAdv c) ∧
    e.dHdq c = (d.J c).crossF (d.oh i) + (d.oYcrb i).mul (d.dVdq c) := by
  have hne : i ≠ s.par i := by omega
  unfold cdBwd
  by_cases hz : s.par i > 0
  · simp only [hz, if_true, putSeg_at _ _ hk, upd_ne _ _ hne, and_self]
  · simp only [hz, if_false, putSeg_at _ _ hk, upd_ne _ _ hne, and_self]

theorem cdBwd_out (i : ℕ) (d : Data K) {c : ℕ} (hc : ¬ (s.iv i ≤ c ∧ c < s.iv i + s.jnv i)) :
    let e := cdBwd s i d
    e.tau c = d.tau c ∧ e.dFda c = d.dFda c ∧ e.dFdq c = d.dFdq c ∧ e.dFdv c = d.dFdv c ∧ e.dHdq c = d.dHdq c := by
  unfold cdBwd
  by_cases hz : s.par i > 0
  · simp only [hz, if_true, putSeg_out _ _ hc, and_self]
  · simp only [hz, if_false, putSeg_out _ _ hc, and_self]

theorem CdB.step (h : s.Packed) {q v a : ℕ → K} {i : ℕ} (h1 : 1 ≤ i) (hi : i < s.n) {d : Data K}
    (ih : CdB s q v a (i + 1) d) : CdB s q v a i (cdBwd s i d) := by
  have hp := h.par
  have hpi := hp.2 i h1 hi
  have hYi : (d.oYcrb i).matrix = s.oYm q i := ih.Y.val hp h1 hi
  have hBi : d.doYcrb i = s.dBm q v i := ih.accB.eq_acc hp (Sys.dBm_acc hp q v) i h1 hi le_rfl
  have hFi : d.of i = s.noGrav.oFm q v a (fun _ => 0) i := by
    rw [Sys.noGrav_oFm]; exact ih.accF.val hp h1 hi (sum_acc0 hp _)
  have hHi : d.oh i = s.ohm q v i := ih.accH.val hp h1 hi (sum_acc0 hp _)
  have hmul : ∀ m, (d.oYcrb i).mul m = (s.oYm q i).mulMF m := by
    intro m; rw [← Inertia.matrix_mulMF, hYi]
  have ne : ∀ j, 1 ≤ j → j < s.n → j ≠ i → ∀ k, k < s.jnv j → ¬ (s.iv i ≤ s.iv j + k ∧ s.iv j + k < s.iv i + s.jnv i) := by
    rintro j j1 hj e k hk ⟨x, y⟩
    exact e (h.inj j1 hj h1 hi hk (l := s.iv j + k - s.iv i) (by omega) (by omega)).1
  obtain ⟨s1, s2, s3, s4, s5, s6, s7, s8⟩ := cdBwd_same (s := s) i d
  have hif : ∀ k, k < s.jnv i → (if s.par i > 0 then (d.doYcrb i).mulMF (d.dVdq (s.iv i + k))
        + (d.oYcrb i).mul (d.dAdq (s.iv i + k)) else (d.oYcrb i).mul (d.dAdq (s.iv i + k)))
      = (s.oYm q i).mulMF (s.noGrav.dAq q v a i k) + (s.dBm q v i).mulMF (s.dVq q v i k) := by
    intro k hk
    rw [ih.dVq i h1 hi k hk, ih.dAq i h1 hi k hk, hmul, hBi]
    split
    · rw [add_comm]
    · rename_i hz
      have : s.dVq q v i k = 0 := by
        unfold Sys.dVq; rw [show s.par i = 0 by omega, Sys.oV_zero, Motion.zero_cross]
      rw [this, M6.mulMF_zero, add_zero]
  refine ⟨?_, ?_, ?_, ?_, ?_, ?_, ?_, ?_, ?_, ?_, ?_, ?_, ?_⟩
  · rw [s1]; exact ih.J
  · rw [s2]; exact ih.dVq
  · rw [s3]; exact ih.dAq
  · rw [s4]; exact ih.dAv
  · rw [s5]; exact ih.Y.step hp h1 hi
  · apply PAcc.step hp h1 hi ih.accB
    intro j _
    rw [s6]; exact upd_push _ _ _ j
  · refine ih.accF.step hp h1 hi (sum_acc0 hp _) fun j _ => ?_
    rw [s8]; exact upd_push _ _ _ j
  · refine ih.accH.step hp h1 hi (sum_acc0 hp _) fun j _ => ?_
    rw [s7]; exact upd_push _ _ _ j
  · intro j j1 hij hj l hl
    by_cases e : j = i
    · subst e; rw [(cdBwd_cols j d hl hpi).2.1, ih.J j j1 hj l hl, hmul]; rfl
    · rw [(cdBwd_out i d (ne j j1 hj e l hl)).2.1]; exact ih.Fa j j1 (by omega) hj l hl
  · intro j j1 hij hj l hl
    by_cases e : j = i
    · subst e; rw [(cdBwd_cols j d hl hpi).2.2.1, hif l hl, ih.J j j1 hj l hl, hFi]; rfl
    · rw [(cdBwd_out i d (ne j j1 hj e l hl)).2.2.1]; exact ih.Fq j j1 (by omega) hj l hl
  · intro j j1 hij hj l hl
    by_cases e : j = i
    · subst e
      rw [(cdBwd_cols j d hl hpi).2.2.2.1, ih.J j j1 hj l hl, ih.dAv j j1 hj l hl, hBi, hmul, add_comm]; rfl
    · rw [(cdBwd_out i d (ne j j1 hj e l hl)).2.2.2.1]; exact ih.Fv j j1 (by omega) hj l hl
  · intro j j1 hij hj l hl
    by_cases e : j = i
    · subst e
      rw [(cdBwd_cols j d hl hpi).2.2.2.2, ih.J j j1 hj l hl, ih.dVq j j1 hj l hl, hHi, hmul]; rfl
    · rw [(cdBwd_out i d (ne j j1 hj e l hl)).2.2.2.2]; exact ih.Hq j j1 (by omega) hj l hl
  · intro j j1 hij hj l hl
    by_cases e : j = i
    · subst e; rw [(cdBwd_cols j d hl hpi).1, ih.J j j1 hj l hl, hFi]
    · rw [(cdBwd_out i d (ne j j1 hj e l hl)).1]; exact ih.tau j j1 (by omega) hj l hl

theorem PAcc.start' {M : Type*} [AddCommGroup M] {x0 x : ℕ → M} (hx : ∀ i, 1 ≤ i → i < s.n → x i = x0 i) :
    PAcc s.par s.n (fun _ x => x) x0 s.n x := by
  intro i h1 hi
  rw [filter_eq_empty_iff.2, sum_empty, add_zero]
  · exact hx i h1 hi
  · intro c hc'; have := (mem_kids.1 hc').1.2; omega

/-- what the output needs: the columns at the world origin and the sums on all bodies -/
structure CdOut (s : Sys K) (q v a : ℕ → K) (F : ℕ → Force K) (d : Data K) : Prop where
  Y0 : (d.oYcrb 0).matrix = s.oYm q 0
  H0 : d.oh 0 = s.hsum q v
  F0 : d.of 0 = s.dhsum q v a
  Fa : ∀ j, 1 ≤ j → j < s.n → ∀ l, l < s.jnv j → d.dFda (s.iv j + l) = s.fA q j l
  Fq : ∀ j, 1 ≤ j → j < s.n → ∀ l, l < s.jnv j → F (s.iv j + l) = s.noGrav.fQ q v a (fun _ => 0) j l
  Fv : ∀ j, 1 ≤ j → j < s.n → ∀ l, l < s.jnv j → d.dFdv (s.iv j + l) = s.fV q v j l
  Hq : ∀ j, 1 ≤ j → j < s.n → ∀ l, l < s.jnv j → d.dHdq (s.iv j + l) = s.hQ q v j l

/-- data before the quantities at the centre of mass in `computeCentroidalDynamicsDerivatives` -/
def cdCore (s : Sys K) (d : Data K) (q v a : ℕ → K) : Data K :=
  let d := fwd (cdFwd s q v a) s.n d
  let d := { d with oYcrb := upd d.oYcrb 0 0, oh := upd d.oh 0 0, of := upd d.of 0 0 }
  bwd (cdBwd s) s.n d

theorem cdCore_ok (h : s.Packed) (hm : s.MassesOk) {q : ℕ → K} (hq : s.At q) (v a : ℕ → K) {d : Data K}
    (h0 : d.oa 0 = 0) : CdB s q v a 1 (cdCore s d q v a) := by
  have hd := cdFwd_ok h hq v a h0
  unfold cdCore
  dsimp only
  generalize fwd (cdFwd s q v a) s.n d = e at hd
  apply bwd_ind (P := fun k (x : Data K) => CdB s q v a k x) h.par.1
  · refine ⟨hd.J, hd.dVq, hd.dAq, hd.dAv, YB.start hm (upd_self e.oYcrb 0 0) ?_, PAcc.start' hd.B, acc_start (upd_self e.of 0 0) ?_,
      acc_start (upd_self e.oh 0 0) ?_, fun i _ _ _ => by omega, fun i _ _ _ => by omega,
      fun i _ _ _ => by omega, fun i _ _ _ => by omega, fun i _ _ _ => by omega⟩
    all_goals intro i h1 hi; dsimp only; rw [upd_ne _ _ (by omega)]
    · exact hd.Y i h1 hi
    · exact hd.of i h1 hi
    · exact hd.oh i h1 hi
  · intro i x h1 hi ih
    exact ih.step h h1 hi

theorem CdB.out (h : s.Packed) {q : ℕ → K} (hq : s.At q) {v a : ℕ → K} {d : Data K} (hd : CdB s q v a 1 d) :
    CdOut s q v a d.dFdq d := by
  refine ⟨hd.Y.root h.par, ?_, ?_, fun j j1 => hd.Fa j j1 j1, fun j j1 => hd.Fq j j1 j1, fun j j1 => hd.Fv j j1 j1,
    fun j j1 => hd.Hq j j1 j1⟩
  · rw [acc_root h.par hd.accH, hsum_eq h.par hq]
  · rw [acc_root h.par hd.accF, Sys.dhsum_oF]

/-! ## after `computeRNEADerivatives` -/

/-- what `getCentroidalDynamicsDerivatives` reads -/
structure GcPre (s : Sys K) (q v a : ℕ → K) (fext : ℕ → Force K) (d : Data K) : Prop where
  J : JOk s q s.n d.J
  dVq : ∀ i, 1 ≤ i → i < s.n → ∀ k, k < s.jnv i → d.dVdq (s.iv i + k) = s.dVq q v i k
  mass : ∀ i, 1 ≤ i → i < s.n → Inertia.MassOk (d.oYcrb i).mass
  Y : ∀ i, 1 ≤ i → i < s.n → (d.oYcrb i).matrix = s.oYm q i
  of : ∀ i, 1 ≤ i → i < s.n → d.of i = s.oFm q v a fext i
  oh : ∀ i, 1 ≤ i → i < s.n → d.oh i = (s.oI q i).mulMF (s.oV q v i)
  Fa : ∀ j, 1 ≤ j → j < s.n → ∀ l, l < s.jnv j → d.dFda (s.iv j + l) = s.fA q j l
  Fq : ∀ j, 1 ≤ j → j < s.n → ∀ l, l < s.jnv j → d.dFdq (s.iv j + l) = s.fQ q v a fext j l
  Fv : ∀ j, 1 ≤ j → j < s.n → ∀ l, l < s.jnv j → d.dFdv (s.iv j + l) = s.fV q v j l

theorem rneaDerBwd_oh (i : ℕ) (x : Data K × RneaDer K) : (rneaDerBwd s i x).1.oh = x.1.oh := by
  obtain ⟨d, o⟩ := x
  unfold rneaDerBwd
  by_cases hz : s.par i > 0
  · simp only [hz, if_true]
  · simp only [hz, if_false]

theorem rneaDer_pre (h : s.Packed) (hc : Compact s.par s.n) (hm : s.MassesOk) {q v a : ℕ → K} {fext : ℕ → Force K}
    {d : Data K} (hd : RdF s q v a (s.oF (-s.grav) q v a fext) s.n d) (o : RneaDer K) :
    GcPre s q v a fext (bwd (rneaDerBwd s) s.n (d, o)).1 := by
  have hp := h.par
  have b := (rneaDerBwd_ok h hc hm hd o).1
  have hoh : (bwd (rneaDerBwd s) s.n (d, o)).1.oh = d.oh :=
    bwd_ind (P := fun _ (x : Data K × RneaDer K) => x.1.oh = d.oh) h.par.1 rfl
      (fun i x _ _ e => (rneaDerBwd_oh i x).trans e)
  refine ⟨b.J, b.dVq, b.mass, fun i h1 hi => b.acc.eq_acc hp (Sys.oYm_acc hp q) i h1 hi (by omega),
    fun i h1 hi => b.accF.eq_acc hp (Sys.oFm_acc hp q v a fext) i h1 hi (by omega), ?_,
    fun j j1 => b.Fa j j1 j1, fun j j1 => b.Fq j j1 j1, fun j j1 => b.Fv j j1 j1⟩
  intro i h1 hi
  rw [hoh]; exact hd.oh i h1 hi

/-- after `computeRNEADerivatives` -/
theorem rneaDerivatives_pre (h : s.Packed) (hc : Compact s.par s.n) (hm : s.MassesOk) (d : Data K) {q : ℕ → K}
    (hq : s.At q) (v a : ℕ → K) (o : RneaDer K) :
    GcPre s q v a (fun _ => 0) (computeRNEADerivatives s d q v a o).1 := by
  have hp := rneaDer_pre h hc hm (rneaDerFwd_ok h hq v a (d := { d with oa_gf := upd d.oa_gf 0 (-s.grav) })
    (upd_self d.oa_gf 0 _)) o
  unfold computeRNEADerivatives
  dsimp only
  exact ⟨hp.J, hp.dVq, hp.mass, hp.Y, hp.of, hp.oh, hp.Fa, hp.Fq, hp.Fv⟩

/-! ### the loop -/

/-- the correction on a column of `Ftmp` -/
def gCorr (Y : Inertia K) (g J : Motion K) : V3 K := (J.lin + J.ang.cross Y.lever).cross (Y.mass • g.lin)

theorem putSeg_succ {α : Type*} (x : ℕ → α) (i n : ℕ) (y : ℕ → α) :
    putSeg x i (n + 1) y = upd (putSeg x i n y) (i + n) (y n) := by
  funext c
  by_cases e : c = i + n
  · subst e; rw [upd_self]; unfold putSeg; rw [if_pos ⟨by omega, by omega⟩]; congr 1; omega
  · rw [upd_ne _ _ e]; unfold putSeg
    by_cases hc : i ≤ c ∧ c < i + n
    · rw [if_pos hc, if_pos ⟨hc.1, by omega⟩]
    · rw [if_neg hc, if_neg (by omega)]

theorem putSeg_zero {α : Type*} (x : ℕ → α) (i : ℕ) (y : ℕ → α) : putSeg x i 0 y = x := by
  funext c; unfold putSeg; rw [if_neg (by omega)]

theorem upd_same {α : Type*} (f : ℕ → α) (i : ℕ) : upd f i (f i) = f := by
  funext j
  by_cases e : j = i
  · subst e; rw [upd_self]
  · rw [upd_ne _ _ e]

theorem getCd_fold (i : ℕ) (mg : V3 K) (d : Data K) (m : ℕ) : ∃ V, (List.range m).foldl (fun (d : Data K) k =>
    let m := d.J (s.iv i + k)
    let d := { d with v := upd d.v 0 ⟨m.lin + m.ang.cross (d.oYcrb i).lever, (d.v 0).ang⟩ }
    { d with Fcrb := upd d.Fcrb 0 (upd (d.Fcrb 0) (s.iv i + k)
      ⟨(d.Fcrb 0 (s.iv i + k)).lin, (d.Fcrb 0 (s.iv i + k)).ang + (d.v 0).lin.cross mg⟩) }) d
    = { d with
        v := V
        Fcrb := upd d.Fcrb 0 (putSeg (d.Fcrb 0) (s.iv i) m (fun k => ⟨(d.Fcrb 0 (s.iv i + k)).lin,
          (d.Fcrb 0 (s.iv i + k)).ang + ((d.J (s.iv i + k)).lin + (d.J (s.iv i + k)).ang.cross
            (d.oYcrb i).lever).cross mg⟩)) } := by
  induction m with
  | zero => exact ⟨d.v, by rw [putSeg_zero, upd_same]; rfl⟩
  | succ m ih =>
    obtain ⟨V, ih⟩ := ih
    rw [List.range_succ, List.foldl_append, ih, List.foldl_cons, List.foldl_nil]
    refine ⟨upd V 0 ⟨(d.J (s.iv i + m)).lin + (d.J (s.iv i + m)).ang.cross (d.oYcrb i).lever, (V 0).ang⟩, ?_⟩
    dsimp only
    have e : putSeg (d.Fcrb 0) (s.iv i) m (fun k => (⟨(d.Fcrb 0 (s.iv i + k)).lin,
          (d.Fcrb 0 (s.iv i + k)).ang + ((d.J (s.iv i + k)).lin + (d.J (s.iv i + k)).ang.cross
            (d.oYcrb i).lever).cross mg⟩ : Force K)) (s.iv i + m) = d.Fcrb 0 (s.iv i + m) := by
      unfold putSeg; rw [if_neg (by omega)]
    rw [upd_upd, upd_self, upd_self, e, putSeg_succ]

theorem getCdBwd_eqs (i : ℕ) (d : Data K) (hpi : s.par i < i) :
    let e := getCdBwd s i d
    e.J = d.J ∧ e.dVdq = d.dVdq ∧ e.dFda = d.dFda ∧ e.dFdv = d.dFdv ∧
    e.Fcrb 0 = putSeg (d.Fcrb 0) (s.iv i) (s.jnv i) (fun k => ⟨(d.Fcrb 0 (s.iv i + k)).lin,
      (d.Fcrb 0 (s.iv i + k)).ang + gCorr (d.oYcrb i) s.grav (d.J (s.iv i + k))⟩) ∧
    e.oh = upd d.oh (s.par i) (d.oh (s.par i) + d.oh i) ∧
    e.of = (if s.par i = 0 then upd d.of 0 (d.of 0 + d.of i) else d.of) ∧
    e.oYcrb = (if s.par i = 0 then upd d.oYcrb 0 (Inertia.addAssign (d.oYcrb 0) (d.oYcrb i)) else d.oYcrb) ∧
    (∀ c, ¬ (s.iv i ≤ c ∧ c < s.iv i + s.jnv i) → e.dHdq c = d.dHdq c) ∧
    (∀ k, k < s.jnv i → e.dHdq (s.iv i + k) = (d.J (s.iv i + k)).crossF (d.oh i)
      + (d.oYcrb i).mul (d.dVdq (s.iv i + k))) := by
  have hne : i ≠ s.par i := by omega
  have hn0 : i ≠ 0 := by omega
  obtain ⟨V, e⟩ := getCd_fold (s := s) i ((d.oYcrb i).mass • s.grav.lin) d (s.jnv i)
  unfold getCdBwd
  dsimp only at e ⊢
  rw [e]
  by_cases hz : s.par i = 0
  · simp only [hz, if_true, upd_self, true_and]
    refine ⟨rfl, fun c hc => ?_, fun k hk => ?_⟩
    · simp only [putSeg_out _ _ hc]
    · simp only [putSeg_at _ _ hk, upd_ne _ _ hn0]
  · simp only [hz, if_false, upd_self, true_and]
    refine ⟨rfl, fun c hc => ?_, fun k hk => ?_⟩
    · simp only [putSeg_out _ _ hc]
    · simp only [putSeg_at _ _ hk, upd_ne _ _ hne]

/-- sums on the children of the universe -/
theorem root_step {M : Type*} [AddCommMonoid M] {i : ℕ} (h1 : 1 ≤ i) (hi : i < s.n) (g : ℕ → M) :
    ∑ c ∈ (kids s.par s.n 0).filter (fun c => i ≤ c), g c
      = (∑ c ∈ (kids s.par s.n 0).filter (fun c => i + 1 ≤ c), g c) + if s.par i = 0 then g i else 0 := by
  by_cases hz : s.par i = 0
  · rw [if_pos hz]
    have : (kids s.par s.n 0).filter (fun c => i ≤ c)
        = insert i ((kids s.par s.n 0).filter (fun c => i + 1 ≤ c)) := by
      ext c
      simp only [mem_filter, mem_insert, mem_kids]
      constructor
      · rintro ⟨⟨x, e⟩, g⟩
        by_cases hc : c = i
        · exact Or.inl hc
        · exact Or.inr ⟨⟨x, e⟩, by omega⟩
      · rintro (rfl | ⟨⟨x, e⟩, g⟩)
        · exact ⟨⟨⟨h1, hi⟩, hz⟩, le_rfl⟩
        · exact ⟨⟨x, e⟩, by omega⟩
    rw [this, sum_insert (by simp), add_comm]
  · rw [if_neg hz, add_zero]
    apply sum_congr _ (fun _ _ => rfl)
    ext c
    simp only [mem_filter, mem_kids]
    constructor
    · rintro ⟨⟨x, e⟩, g⟩
      have : c ≠ i := by rintro rfl; exact hz e
      exact ⟨⟨x, e⟩, by omega⟩
    · rintro ⟨⟨x, e⟩, g⟩; exact ⟨⟨x, e⟩, by omega⟩

/-- state in the loop -/
structure GcB (s : Sys K) (q v a : ℕ → K) (fext : ℕ → Force K) (k : ℕ) (d : Data K) : Prop where
  J : JOk s q s.n d.J
  dVq : ∀ i, 1 ≤ i → i < s.n → ∀ k, k < s.jnv i → d.dVdq (s.iv i + k) = s.dVq q v i k
  mass : ∀ i, i < s.n → Inertia.MassOk (d.oYcrb i).mass
  Y : ∀ i, 1 ≤ i → i < s.n → (d.oYcrb i).matrix = s.oYm q i
  of : ∀ i, 1 ≤ i → i < s.n → d.of i = s.oFm q v a fext i
  Y0 : (d.oYcrb 0).matrix = ∑ c ∈ (kids s.par s.n 0).filter (fun c => k ≤ c), s.oYm q c
  of0 : d.of 0 = ∑ c ∈ (kids s.par s.n 0).filter (fun c => k ≤ c), s.oFm q v a fext c
  accH : RAcc s.par s.n (fun _ y => y) (fun i => if i = 0 then 0 else (s.oI q i).mulMF (s.oV q v i))
    (fun i => ∑ b ∈ subtree s.par s.n i, (s.oI q b).mulMF (s.oV q v b)) k d.oh
  Fa : ∀ j, 1 ≤ j → j < s.n → ∀ l, l < s.jnv j → d.dFda (s.iv j + l) = s.fA q j l
  Fv : ∀ j, 1 ≤ j → j < s.n → ∀ l, l < s.jnv j → d.dFdv (s.iv j + l) = s.fV q v j l
  F0 : ∀ j, 1 ≤ j → j < k → j < s.n → ∀ l, l < s.jnv j → d.Fcrb 0 (s.iv j + l) = s.fQ q v a fext j l
  Fq : ∀ j, 1 ≤ j → k ≤ j → j < s.n → ∀ l, l < s.jnv j → d.Fcrb 0 (s.iv j + l)
    = s.fQ q v a fext j l + ⟨0, gCorr (d.oYcrb j) s.grav (s.Jc q j l)⟩
  Hq : ∀ j, 1 ≤ j → k ≤ j → j < s.n → ∀ l, l < s.jnv j → d.dHdq (s.iv j + l) = s.hQ q v j l

theorem GcB.step (h : s.Packed) {q v a : ℕ → K} {fext : ℕ → Force K} {i : ℕ} (h1 : 1 ≤ i) (hi : i < s.n) {d : Data K}
    (ih : GcB s q v a fext (i + 1) d) : GcB s q v a fext i (getCdBwd s i d) := by
  have hp := h.par
  have hpi := hp.2 i h1 hi
  obtain ⟨e1, e2, e3, e4, e5, e6, e7, e8, e9, e10⟩ := getCdBwd_eqs (s := s) i d hpi
  have hHi : d.oh i = s.ohm q v i := ih.accH.val hp h1 hi (sum_acc0 hp _)
  have hY' : ∀ j, 1 ≤ j → (getCdBwd s i d).oYcrb j = d.oYcrb j := by
    intro j j1
    rw [e8]; split
    · rw [upd_ne _ _ (by omega)]
    · rfl
  have hadd := Inertia.addAssign_matrix (ih.mass 0 (by omega)) (ih.mass i hi)
  have ne : ∀ j, 1 ≤ j → j < s.n → j ≠ i → ∀ k, k < s.jnv j → ¬ (s.iv i ≤ s.iv j + k ∧ s.iv j + k < s.iv i + s.jnv i) := by
    rintro j j1 hj e k hk ⟨x, y⟩
    exact e (h.inj j1 hj h1 hi hk (l := s.iv j + k - s.iv i) (by omega) (by omega)).1
  refine ⟨?_, ?_, ?_, ?_, ?_, ?_, ?_, ?_, ?_, ?_, ?_, ?_, ?_⟩
  · rw [e1]; exact ih.J
  · rw [e2]; exact ih.dVq
  · intro j hj
    rcases Nat.eq_zero_or_pos j with rfl | j1
    · rw [e8]; split
      · rw [upd_self]; exact hadd.2
      · exact ih.mass 0 hj
    · rw [hY' j j1]; exact ih.mass j hj
  · intro j j1 hj
    rw [hY' j j1]; exact ih.Y j j1 hj
  · intro j j1 hj
    rw [e7]; split
    · rw [upd_ne _ _ (by omega)]; exact ih.of j j1 hj
    · exact ih.of j j1 hj
  · rw [root_step h1 hi, ← ih.Y0, e8]
    split
    · rw [upd_self, hadd.1, ih.Y i h1 hi]
    · rw [add_zero]
  · rw [root_step h1 hi, ← ih.of0, e7]
    split
    · rw [upd_self, ih.of i h1 hi]
    · rw [add_zero]
  · refine ih.accH.step hp h1 hi (sum_acc0 hp _) fun j _ => ?_
    rw [e6]; exact upd_push _ _ _ j
  · rw [e3]; exact ih.Fa
  · rw [e4]; exact ih.Fv
  · intro j j1 hij hj l hl
    rw [e5, putSeg_out _ _ (ne j j1 hj (by omega) l hl)]
    exact ih.F0 j j1 (by omega) hj l hl
  · intro j j1 hij hj l hl
    rw [e5, hY' j j1]
    by_cases e : j = i
    · subst e
      rw [putSeg_at _ _ hl, ih.J j j1 hj l hl, ih.F0 j j1 (by omega) hj l hl]
      ext <;> simp
    · rw [putSeg_out _ _ (ne j j1 hj e l hl)]; exact ih.Fq j j1 (by omega) hj l hl
  · intro j j1 hij hj l hl
    by_cases e : j = i
    · subst e
      rw [e10 l hl, ih.J j j1 hj l hl, ih.dVq j j1 hj l hl, hHi, ← Inertia.matrix_mulMF, ih.Y j j1 hj]; rfl
    · rw [e9 _ (ne j j1 hj e l hl)]; exact ih.Hq j j1 (by omega) hj l hl

/-- the loop of `getCentroidalDynamicsDerivatives` -/
def getCdCore (s : Sys K) (d : Data K) : Data K :=
  let d := { d with oh := upd d.oh 0 0, of := upd d.of 0 0, oYcrb := upd d.oYcrb 0 0 }
  let d := { d with Fcrb := upd d.Fcrb 0 d.dFdq }
  bwd (getCdBwd s) s.n d

theorem getCdCore_ok (h : s.Packed) {q v a : ℕ → K} {fext : ℕ → Force K} {d : Data K} (hd : GcPre s q v a fext d) :
    GcB s q v a fext 1 (getCdCore s d) := by
  have fe : (kids s.par s.n 0).filter (fun c => s.n ≤ c) = ∅ := by
    rw [filter_eq_empty_iff]; intro c hc; have := (mem_kids.1 hc).1.2; omega
  unfold getCdCore
  dsimp only
  apply bwd_ind (P := fun k (x : Data K) => GcB s q v a fext k x) h.par.1
  · refine ⟨hd.J, hd.dVq, ?_, ?_, ?_, ?_, ?_, acc_start (upd_self d.oh 0 0) ?_, hd.Fa, hd.Fv, ?_,
      fun i _ _ _ => by omega, fun i _ _ _ => by omega⟩
    · intro i hi
      dsimp only
      rcases Nat.eq_zero_or_pos i with rfl | j1
      · rw [upd_self]; exact Or.inl rfl
      · rw [upd_ne _ _ (by omega)]; exact hd.mass i j1 hi
    · intro i h1 hi; dsimp only; rw [upd_ne _ _ (by omega)]; exact hd.Y i h1 hi
    · intro i h1 hi; dsimp only; rw [upd_ne _ _ (by omega)]; exact hd.of i h1 hi
    · dsimp only; rw [fe, sum_empty, upd_self]
      ext <;> simp [Inertia.matrix, M3.alphaSkew, Sym3.subAlphaSkewSquare, Sym3.matrix]
    · dsimp only; rw [fe, sum_empty, upd_self]
    · intro i h1 hi; dsimp only; rw [upd_ne _ _ (by omega)]; exact hd.oh i h1 hi
    · intro j j1 _ hj l hl; dsimp only; rw [upd_self]; exact hd.Fq j j1 hj l hl
  · intro i x h1 hi ih
    exact ih.step h h1 hi

/-! ### gravity is removed -/

theorem gCorr_eq {Y : Inertia K} {g : Motion K} (hg : g.ang = 0) (J : Motion K) :
    Y.mul ((-g).cross J) - J.crossF (Y.mul g) + ⟨0, gCorr Y g J⟩ = 0 := by
  obtain ⟨gl, ga⟩ := g
  subst hg
  ext <;> simp [-mul_eq_mul_left_iff, Inertia.mul, Motion.cross, Motion.crossF, gCorr, Sym3.mulVec] <;> ring

theorem oFm_grav (hp : ParOk s.par s.n) {q : ℕ → K} (hq : s.At q) (v a : ℕ → K) (fext : ℕ → Force K) {i : ℕ}
    : s.oFm q v a fext i = s.noGrav.oFm q v a fext i - (s.oYm q i).mulMF s.grav := by
  rw [Sys.noGrav_oFm]
  unfold Sys.oFm Sys.oYm
  rw [M6.sum_mulMF, ← sum_sub_distrib]
  apply sum_congr rfl
  intro b hb
  have hb := (mem_subtree.1 hb).1.2
  rw [Sys.oF_eq hp hq _ _ _ _ hb, Sys.oF_eq hp hq _ _ _ _ hb, Sys.wA_base hp hq (-s.grav) v a hb, M6.mulMF_add]
  have : (s.oI q b).mulMF (-s.grav) = -(s.oI q b).mulMF s.grav := map_neg (s.oI q b).lin _
  rw [this]; abel

theorem fQ_grav (hp : ParOk s.par s.n) {q : ℕ → K} (hq : s.At q) (v a : ℕ → K) (fext : ℕ → Force K) {j l : ℕ}
    (h1 : 1 ≤ j) (hj : j < s.n) : s.fQ q v a fext j l = s.noGrav.fQ q v a fext j l
      + ((s.oYm q j).mulMF ((-s.grav).cross (s.Jc q j l)) - (s.Jc q j l).crossF ((s.oYm q j).mulMF s.grav)) := by
  have hpj := hp.2 j h1 hj
  unfold Sys.fQ
  rw [oFm_grav hp hq, Sys.noGrav_dAq, Sys.noGrav_Jc, Sys.noGrav_oYm, Sys.noGrav_dBm, Sys.noGrav_dVq]
  unfold Sys.dAq
  rw [Sys.wA_base hp hq (-s.grav) v a (show s.par j < s.n by omega)]
  have e1 : ∀ x y z : Motion K, (x + y).cross z = x.cross z + y.cross z := by
    intro x y z; ext <;> simp [Motion.cross] <;> ring
  have e2 : ∀ (x : Motion K) (f g : Force K), x.crossF (f - g) = x.crossF f - x.crossF g :=
    fun x f g => (Sys.crossFLin x).map_sub f g
  rw [e1, e2, M6.mulMF_add, M6.mulMF_add, M6.mulMF_add]
  abel

/-- data before the quantities at the centre of mass in `getCentroidalDynamicsDerivatives` -/
theorem GcB.out (h : s.Packed) {q : ℕ → K} (hq : s.At q) {v a : ℕ → K} (hg : s.grav.ang = 0) {d : Data K}
    (hd : GcB s q v a (fun _ => 0) 1 d) :
    CdOut s q v a (d.Fcrb 0) { d with of := upd d.of 0 (d.of 0 + (d.oYcrb 0).mul s.grav) } := by
  have hp := h.par
  have f1 : (kids s.par s.n 0).filter (fun c => 1 ≤ c) = kids s.par s.n 0 :=
    filter_true_of_mem fun c hc => (mem_kids.1 hc).1.1
  have hY0 : (d.oYcrb 0).matrix = s.oYm q 0 := by rw [hd.Y0, f1, oYm_root hp]
  have hF0 : d.of 0 = s.oFm q v a (fun _ => 0) 0 := by
    rw [hd.of0, f1]
    unfold Sys.oFm
    rw [subtree_root hp]
    exact sum_root hp (T := fun _ x => x) (fun _ b => s.oF (-s.grav) q v a (fun _ => 0) b) (fun _ _ _ => rfl)
  refine ⟨hY0, ?_, ?_, hd.Fa, ?_, hd.Fv, fun j j1 => hd.Hq j j1 j1⟩
  · rw [hsum_eq hp hq]; exact acc_root hp hd.accH
  · dsimp only; rw [upd_self, hF0, oFm_grav hp hq, ← Inertia.matrix_mulMF, hY0, sub_add_cancel, Sys.noGrav_oFm, subtree_root hp,
      Sys.dhsum_oF]
  · intro j j1 hj l hl
    rw [hd.Fq j j1 j1 hj l hl, fQ_grav hp hq v a _ j1 hj, ← hd.Y j j1 hj, Inertia.matrix_mulMF, Inertia.matrix_mulMF,
      add_assoc, gCorr_eq hg, add_zero]

end Pin
