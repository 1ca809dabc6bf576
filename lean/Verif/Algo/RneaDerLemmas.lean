import Verif.Algo.RneaDerivatives
import Verif.Algo.TorqueVariation
import Verif.Algo.KinDerLemmas
import Verif.Algo.CoriolisLemmas

/-! # What the passes of the derivatives of the inverse dynamics compute -/

set_option linter.unusedSectionVars false

namespace Pin
open Finset
universe u
variable {K : Type u} [Field K] {s : Sys K}

theorem upd_upd {α : Type*} (f : ℕ → α) (i : ℕ) (x y : α) : upd (upd f i x) i y = upd f i y := by
  funext j
  by_cases e : j = i
  · subst e; rw [upd_self, upd_self]
  · rw [upd_ne _ _ e, upd_ne _ _ e, upd_ne _ _ e]

/-! ## forward pass -/

theorem rneaDerFwd_eq (q v a : ℕ → K) (i : ℕ) (d : Data K) :
    rneaDerFwd s q v a i d = { fkdStep s q v a i d with
      oinertias := (rneaDerFwd s q v a i d).oinertias
      oYcrb := (rneaDerFwd s q v a i d).oYcrb
      oa_gf := (rneaDerFwd s q v a i d).oa_gf
      oh := (rneaDerFwd s q v a i d).oh
      of := (rneaDerFwd s q v a i d).of
      dVdq := (rneaDerFwd s q v a i d).dVdq
      dAdq := (rneaDerFwd s q v a i d).dAdq
      dAdv := (rneaDerFwd s q v a i d).dAdv
      doYcrb := (rneaDerFwd s q v a i d).doYcrb } := by
  unfold rneaDerFwd fkdStep
  by_cases hp : s.par i > 0
  · simp only [hp, if_true]
  · simp only [hp, if_false]

theorem rneaDerFwd_bodies (q v a : ℕ → K) (i : ℕ) (d : Data K) :
    let e := fkdStep s q v a i d
    let Y := (s.Y i).act (e.oMi i)
    let x := rneaDerFwd s q v a i d
    x.oinertias = upd d.oinertias i Y ∧ x.oYcrb = upd d.oYcrb i Y ∧ x.oa_gf = upd d.oa_gf i (e.oa i - s.grav) ∧
    x.oh = upd d.oh i (Y.mul (e.ov i)) ∧
    x.of = upd d.of i (Y.mul (e.oa i - s.grav) + (e.ov i).crossF (Y.mul (e.ov i))) ∧
    x.doYcrb = upd d.doYcrb i (addForceCross (Y.mul (e.ov i)) (Y.variation (e.ov i))) := by
  unfold rneaDerFwd fkdStep
  by_cases hp : s.par i > 0
  · simp [hp, upd_upd]
  · simp [hp, upd_upd]

theorem rneaDerFwd_cols (q v a : ℕ → K) (i : ℕ) (d : Data K) {k : ℕ} (hk : k < s.jnv i) (hpi : s.par i < i) :
    let e := fkdStep s q v a i d
    let x := rneaDerFwd s q v a i d
    let J := e.J (s.iv i + k)
    x.dVdq (s.iv i + k) = (if s.par i > 0 then (e.ov (s.par i)).cross J else 0) ∧
    x.dAdq (s.iv i + k) = (d.oa_gf (s.par i)).cross J
      + (if s.par i > 0 then (e.ov (s.par i)).cross ((e.ov (s.par i)).cross J) else 0) ∧
    x.dAdv (s.iv i + k) = e.dJ (s.iv i + k) + (if s.par i > 0 then (e.ov (s.par i)).cross J else 0) := by
  have hne : s.par i ≠ i := by omega
  unfold rneaDerFwd fkdStep
  by_cases hp : s.par i > 0
  · simp [hp, putSeg_at _ _ hk, upd_ne _ _ hne]
  · simp [hp, putSeg_at _ _ hk, upd_ne _ _ hne]

theorem rneaDerFwd_out (q v a : ℕ → K) (i : ℕ) (d : Data K) {c : ℕ} (hc : ¬ (s.iv i ≤ c ∧ c < s.iv i + s.jnv i)) :
    (rneaDerFwd s q v a i d).dVdq c = d.dVdq c ∧ (rneaDerFwd s q v a i d).dAdq c = d.dAdq c ∧
      (rneaDerFwd s q v a i d).dAdv c = d.dAdv c := by
  unfold rneaDerFwd
  by_cases hp : s.par i > 0
  · simp only [hp, if_true, putSeg_out _ _ hc, and_self]
  · simp only [hp, if_false, putSeg_out _ _ hc, and_self]

/-- what the forward pass leaves, joints below `m`; `F` is the force on the bodies -/
structure RdF (s : Sys K) (q v a : ℕ → K) (F : ℕ → Force K) (m : ℕ) (d : Data K) : Prop extends FkdOk s q v a m d where
  Y : ∀ i, 1 ≤ i → i < m → d.oYcrb i = (s.Y i).act (s.oM q i)
  I : ∀ i, 1 ≤ i → i < m → d.oinertias i = (s.Y i).act (s.oM q i)
  gf : ∀ i, i < m → d.oa_gf i = s.wA (-s.grav) q v a i
  oh : ∀ i, 1 ≤ i → i < m → d.oh i = (s.oI q i).mulMF (s.oV q v i)
  of : ∀ i, 1 ≤ i → i < m → d.of i = F i
  B : ∀ i, 1 ≤ i → i < m → d.doYcrb i = s.dB q v i
  dVq : ∀ i, 1 ≤ i → i < m → ∀ k, k < s.jnv i → d.dVdq (s.iv i + k) = s.dVq q v i k
  dAq : ∀ i, 1 ≤ i → i < m → ∀ k, k < s.jnv i → d.dAdq (s.iv i + k) = s.dAq q v a i k
  dAv : ∀ i, 1 ≤ i → i < m → ∀ k, k < s.jnv i → d.dAdv (s.iv i + k) = s.dAv q v i k

theorem Sys.wA_zero (a0 : Motion K) (q v a : ℕ → K) : s.wA a0 q v a 0 = a0 := by
  unfold Sys.wA; rw [Sys.A_zero, Sys.oM_zero]; simp

theorem rneaDerFwd_step (h : s.Packed) {q : ℕ → K} (hq : s.At q) (v a : ℕ → K) {F : ℕ → Force K} {i : ℕ} (h1 : 1 ≤ i)
    (hi : i < s.n) {d : Data K} (ih : RdF s q v a F i d) (g : Force K)
    (hF : F i = s.oF (-s.grav) q v a (fun _ => 0) i - (s.oM q i).actF g) :
    RdF s q v a F (i + 1) { rneaDerFwd s q v a i d with
      of := upd (rneaDerFwd s q v a i d).of i ((rneaDerFwd s q v a i d).of i
        - ((rneaDerFwd s q v a i d).oMi i).actF g) } := by
  have hp := h.par
  have hpi := hp.2 i h1 hi
  have ht := fkd_step h hq v a h1 hi ih.toFkdOk
  obtain ⟨b1, b2, b3, b4, b5, b6⟩ := rneaDerFwd_bodies (s := s) q v a i d
  have eo : (fkdStep s q v a i d).oMi i = s.oM q i := (ht.pl i h1 (by omega)).2.1
  have ev : (fkdStep s q v a i d).ov i = s.oV q v i := ht.ov i h1 (by omega)
  have ea : (fkdStep s q v a i d).oa i - s.grav = s.wA (-s.grav) q v a i := by
    rw [ht.oa i h1 (by omega), Sys.wA_base hp hq (-s.grav) v a hi, sub_eq_add_neg]
  have evp : s.par i > 0 → (fkdStep s q v a i d).ov (s.par i) = s.oV q v (s.par i) :=
    fun hz => ht.ov _ hz (by omega)
  have egp : d.oa_gf (s.par i) = s.wA (-s.grav) q v a (s.par i) := ih.gf _ hpi
  have ev0 : ∀ x : Motion K, ¬ s.par i > 0 → (s.oV q v (s.par i)).cross x = 0 := by
    intro x hz
    rw [show s.par i = 0 by omega, Sys.oV_zero, Motion.zero_cross]
  have eoM : (rneaDerFwd s q v a i d).oMi = (fkdStep s q v a i d).oMi := by rw [rneaDerFwd_eq]
  have cV : ∀ k, k < s.jnv i → (rneaDerFwd s q v a i d).dVdq (s.iv i + k) = s.dVq q v i k := by
    intro k hk
    rw [(rneaDerFwd_cols q v a i d hk hpi).1, ht.J i h1 (by omega) k hk]
    unfold Sys.dVq
    split
    · rename_i hz; rw [evp hz]
    · rename_i hz; rw [ev0 _ hz]
  have cA : ∀ k, k < s.jnv i → (rneaDerFwd s q v a i d).dAdq (s.iv i + k) = s.dAq q v a i k := by
    intro k hk
    rw [(rneaDerFwd_cols q v a i d hk hpi).2.1, ht.J i h1 (by omega) k hk, egp]
    unfold Sys.dAq Sys.dVq
    split
    · rename_i hz; rw [evp hz]
    · rename_i hz; rw [ev0 _ hz]
  have cD : ∀ k, k < s.jnv i → (rneaDerFwd s q v a i d).dAdv (s.iv i + k) = s.dAv q v i k := by
    intro k hk
    rw [(rneaDerFwd_cols q v a i d hk hpi).2.2, ht.dJ i h1 (by omega) k hk, ht.J i h1 (by omega) k hk]
    unfold Sys.dAv Sys.dVq
    split
    · rename_i hz; rw [evp hz]
    · rename_i hz; rw [ev0 _ hz]
  have ne : ∀ j, 1 ≤ j → j < s.n → j ≠ i → ∀ k, k < s.jnv j → ¬ (s.iv i ≤ s.iv j + k ∧ s.iv j + k < s.iv i + s.jnv i) := by
    rintro j j1 hj e k hk ⟨x, y⟩
    exact e (h.inj j1 hj h1 hi hk (l := s.iv j + k - s.iv i) (by omega) (by omega)).1
  have hfk : FkdOk s q v a (i + 1) { rneaDerFwd s q v a i d with
      of := upd (rneaDerFwd s q v a i d).of i ((rneaDerFwd s q v a i d).of i
        - ((rneaDerFwd s q v a i d).oMi i).actF g) } := by
    rw [rneaDerFwd_eq]
    exact ⟨⟨ht.pl, ht.vel, ht.J, ht.ov, ht.dJ⟩, ht.acc, ht.oa⟩
  refine ⟨hfk, ?_, ?_, ?_, ?_, ?_, ?_, ?_, ?_, ?_⟩ <;> dsimp only
  · intro j j1 hj
    rw [b2]
    by_cases e : j = i
    · subst e; rw [upd_self, eo]
    · rw [upd_ne _ _ e]; exact ih.Y j j1 (by omega)
  · intro j j1 hj
    rw [b1]
    by_cases e : j = i
    · subst e; rw [upd_self, eo]
    · rw [upd_ne _ _ e]; exact ih.I j j1 (by omega)
  · intro j hj
    rw [b3]
    by_cases e : j = i
    · subst e; rw [upd_self, ea]
    · rw [upd_ne _ _ e]; exact ih.gf j (by omega)
  · intro j j1 hj
    rw [b4]
    by_cases e : j = i
    · subst e; rw [upd_self, eo, ev]; unfold Sys.oI; rw [Inertia.matrix_mulMF]
    · rw [upd_ne _ _ e]; exact ih.oh j j1 (by omega)
  · intro j j1 hj
    by_cases e : j = i
    · subst e
      rw [upd_self, b5, upd_self, eoM, eo, ev, ea, hF, Sys.oF_eq hp hq _ _ _ _ hi, SE3.actF_zero, sub_zero]
      unfold Sys.oI
      rw [Inertia.matrix_mulMF, Inertia.matrix_mulMF]
    · rw [upd_ne _ _ e, b5, upd_ne _ _ e]; exact ih.of j j1 (by omega)
  · intro j j1 hj
    rw [b6]
    by_cases e : j = i
    · subst e; rw [upd_self, eo, ev]; rfl
    · rw [upd_ne _ _ e]; exact ih.B j j1 (by omega)
  · intro j j1 hj k hk
    by_cases e : j = i
    · subst e; exact cV k hk
    · rw [(rneaDerFwd_out q v a i d (ne j j1 (by omega) e k hk)).1]; exact ih.dVq j j1 (by omega) k hk
  · intro j j1 hj k hk
    by_cases e : j = i
    · subst e; exact cA k hk
    · rw [(rneaDerFwd_out q v a i d (ne j j1 (by omega) e k hk)).2.1]; exact ih.dAq j j1 (by omega) k hk
  · intro j j1 hj k hk
    by_cases e : j = i
    · subst e; exact cD k hk
    · rw [(rneaDerFwd_out q v a i d (ne j j1 (by omega) e k hk)).2.2]; exact ih.dAv j j1 (by omega) k hk

theorem rneaDerFwd_start (q v a : ℕ → K) (F : ℕ → Force K) {d : Data K} (h0 : d.oa_gf 0 = -s.grav) :
    RdF s q v a F 1 d := by
  refine ⟨⟨?_, ?_, ?_⟩, ?_, ?_, ?_, ?_, ?_, ?_, ?_, ?_, ?_⟩
  · constructor <;> intro i a b <;> omega
  all_goals try (intro i a b; omega)
  intro i hi
  have : i = 0 := by omega
  subst this
  rw [h0, Sys.wA_zero]

theorem Sys.oF_fext (a0 : Motion K) (q v a : ℕ → K) (fext : ℕ → Force K) (b : ℕ) :
    s.oF a0 q v a fext b = s.oF a0 q v a (fun _ => 0) b - (s.oM q b).actF (fext b) := by
  unfold Sys.oF
  rw [SE3.actF_sub, SE3.actF_sub, SE3.actF_zero, sub_zero]

theorem rneaDerFwdFext_ok (h : s.Packed) {q : ℕ → K} (hq : s.At q) (v a : ℕ → K) (fext : ℕ → Force K) {d : Data K}
    (h0 : d.oa_gf 0 = -s.grav) :
    RdF s q v a (s.oF (-s.grav) q v a fext) s.n (fwd (fun i d =>
      let d := rneaDerFwd s q v a i d
      { d with of := upd d.of i (d.of i - (d.oMi i).actF (fext i)) }) s.n d) := by
  apply fwd_ind (P := fun k (d : Data K) => RdF s q v a (s.oF (-s.grav) q v a fext) k d) h.par.1
  · exact rneaDerFwd_start q v a _ h0
  · intro i d h1 hi ih
    exact rneaDerFwd_step h hq v a h1 hi ih (fext i) (Sys.oF_fext ..)

theorem rneaDerFwd_ok (h : s.Packed) {q : ℕ → K} (hq : s.At q) (v a : ℕ → K) {d : Data K}
    (h0 : d.oa_gf 0 = -s.grav) :
    RdF s q v a (s.oF (-s.grav) q v a (fun _ => 0)) s.n (fwd (rneaDerFwd s q v a) s.n d) := by
  apply fwd_ind (P := fun k (d : Data K) => RdF s q v a (s.oF (-s.grav) q v a (fun _ => 0)) k d) h.par.1
  · exact rneaDerFwd_start q v a _ h0
  · intro i d h1 hi ih
    have := rneaDerFwd_step h hq v a h1 hi ih 0 (Sys.oF_fext ..)
    have e : ∀ x : Data K, { x with of := upd x.of i (x.of i - (x.oMi i).actF 0) } = x := by
      intro x
      have : upd x.of i (x.of i - (x.oMi i).actF 0) = x.of := by
        rw [SE3.actF_zero, sub_zero]
        funext j; by_cases e : j = i
        · subst e; rw [upd_self]
        · rw [upd_ne _ _ e]
      rw [this]
    rwa [e] at this

/-! ## blocks -/

variable [LinearOrder K] [IsStrictOrderedRing K] [HasEps K]

theorem Sys.Packed.jnv_le_nvSub (h : s.Packed) (hc : Compact s.par s.n) {i : ℕ} (h1 : 1 ≤ i) (hi : i < s.n) :
    s.jnv i ≤ s.nvSub i := by
  rcases Nat.eq_zero_or_pos (s.jnv i) with e | e
  · omega
  · have := (h.nvSub_iff hc h1 hi h1 hi (l := s.jnv i - 1) (by omega)).2 (anc_refl h.par hi)
    omega

/-- the block of the columns of joint `i` on the rows of the joints below it -/
theorem putBlock_low {α : Type*} (h : s.Packed) (hc : Compact s.par s.n) (A : ℕ → ℕ → α) (B : ℕ → ℕ → α)
    {i : ℕ} (hi1 : 1 ≤ i) (hi : i < s.n) {a k' j l : ℕ} (ha1 : 1 ≤ a) (ha : a < s.n) (hk : k' < s.jnv a)
    (hj1 : 1 ≤ j) (hj : j < s.n) (hl : l < s.jnv j) [Decidable (j = i ∧ anc s.par i a ∧ a ≠ i)] :
    putBlock A (s.iv i + s.jnv i) (s.iv i) (s.nvSub i - s.jnv i) (s.jnv i) B (s.iv a + k') (s.iv j + l)
      = if j = i ∧ anc s.par i a ∧ a ≠ i then B (s.iv a + k' - (s.iv i + s.jnv i)) l
        else A (s.iv a + k') (s.iv j + l) := by
  unfold putBlock
  have hrow := h.nvSub_iff hc hi1 hi ha1 ha hk
  have hle := h.jnv_le_nvSub hc hi1 hi
  have hcol : (s.iv i ≤ s.iv j + l ∧ s.iv j + l < s.iv i + s.jnv i) ↔ j = i := by
    constructor
    · rintro ⟨x, y⟩
      exact (h.inj hj1 hj hi1 hi hl (l := s.iv j + l - s.iv i) (by omega) (by omega)).1
    · rintro rfl; omega
  have hself : (s.iv i ≤ s.iv a + k' ∧ s.iv a + k' < s.iv i + s.jnv i) ↔ a = i := by
    constructor
    · rintro ⟨x, y⟩
      exact (h.inj ha1 ha hi1 hi hk (l := s.iv a + k' - s.iv i) (by omega) (by omega)).1
    · rintro rfl; omega
  by_cases hh : j = i ∧ anc s.par i a ∧ a ≠ i
  · obtain ⟨e, x, y⟩ := hh
    have hr := hrow.2 x
    have hn := fun z => y (hself.1 z)
    rw [if_pos ⟨⟨by omega, by omega⟩, hcol.2 e⟩, if_pos ⟨e, x, y⟩]
    subst e
    congr 1; omega
  · rw [if_neg (c := j = i ∧ anc s.par i a ∧ a ≠ i) hh, if_neg]
    rintro ⟨⟨x, y⟩, z⟩
    exact hh ⟨hcol.1 z, hrow.1 ⟨by omega, by omega⟩, fun e => by subst e; omega⟩

/-- entries of a matrix that holds, for the joints from `k` on, their rows on their subtrees and their columns below
them -/
structure DerC (s : Sys K) (E : ℕ → ℕ → ℕ → ℕ → K) (C0 : ℕ → ℕ → K) (k : ℕ) (C : ℕ → ℕ → K) : Prop where
  row : ∀ i, 1 ≤ i → k ≤ i → i < s.n → ∀ k', k' < s.jnv i → ∀ j, j < s.n → anc s.par i j →
    ∀ l, l < s.jnv j → C (s.iv i + k') (s.iv j + l) = E i k' j l
  low : ∀ i, 1 ≤ i → k ≤ i → i < s.n → ∀ k', k' < s.jnv i → ∀ j, j < s.n → anc s.par i j → j ≠ i →
    ∀ l, l < s.jnv j → C (s.iv j + l) (s.iv i + k') = E j l i k'
  other : ∀ i, 1 ≤ i → i < s.n → ∀ k', k' < s.jnv i → ∀ j, 1 ≤ j → j < s.n → ¬ anc s.par i j →
    ¬ anc s.par j i → ∀ l, l < s.jnv j → C (s.iv i + k') (s.iv j + l) = C0 (s.iv i + k') (s.iv j + l)

theorem DerC.start (E : ℕ → ℕ → ℕ → ℕ → K) (C0 : ℕ → ℕ → K) : DerC s E C0 s.n C0 :=
  ⟨fun i _ _ _ => by omega, fun i _ _ _ => by omega, fun i _ _ k' _ j _ _ _ _ l _ => rfl⟩

theorem DerC.step (h : s.Packed) (hc : Compact s.par s.n) {E : ℕ → ℕ → ℕ → ℕ → K} {C0 C : ℕ → ℕ → K} {i : ℕ}
    (h1 : 1 ≤ i) (hi : i < s.n) (ih : DerC s E C0 (i + 1) C) {L R : ℕ → ℕ → K}
    (hL : ∀ j, j < s.n → anc s.par i j → j ≠ i → ∀ l, l < s.jnv j → ∀ k, k < s.jnv i →
      L (s.iv j + l - (s.iv i + s.jnv i)) k = E j l i k)
    (hR : ∀ j, j < s.n → anc s.par i j → ∀ l, l < s.jnv j → ∀ k, k < s.jnv i →
      R k (s.iv j + l - s.iv i) = E i k j l) :
    DerC s E C0 i (putBlock (putBlock C (s.iv i + s.jnv i) (s.iv i) (s.nvSub i - s.jnv i) (s.jnv i) L)
      (s.iv i) (s.iv i) (s.jnv i) (s.nvSub i) R) := by
  classical
  have hp := h.par
  constructor
  · intro a ha1 hia ha k' hk' j hj hanc l hl
    have hj1 : 1 ≤ j := le_trans ha1 (anc_le hp j hj hanc)
    rw [putBlock_row h hc _ _ h1 hi ha1 ha hk' hj1 hj hl]
    by_cases e : a = i
    · subst e; rw [if_pos ⟨rfl, hanc⟩]; exact hR j hj hanc l hl k' hk'
    · have := anc_le hp j hj hanc
      rw [if_neg (fun x => e x.1), putBlock_low h hc _ _ h1 hi ha1 ha hk' hj1 hj hl,
        if_neg (fun x => by have := x.1; omega)]
      exact ih.row a ha1 (by omega) ha k' hk' j hj hanc l hl
  · intro a ha1 hia ha k' hk' j hj hanc hne l hl
    have hle := anc_le hp j hj hanc
    have hj1 : 1 ≤ j := le_trans ha1 hle
    rw [putBlock_row h hc _ _ h1 hi hj1 hj hl ha1 ha hk', if_neg (fun x => by have := x.1; omega),
      putBlock_low h hc _ _ h1 hi hj1 hj hl ha1 ha hk']
    by_cases e : a = i
    · subst e; rw [if_pos ⟨rfl, hanc, hne⟩]; exact hL j hj hanc hne l hl k' hk'
    · rw [if_neg (fun x => e x.1)]
      exact ih.low a ha1 (by omega) ha k' hk' j hj hanc hne l hl
  · intro a ha1 ha k' hk' j hj1 hj hn1 hn2 l hl
    rw [putBlock_row h hc _ _ h1 hi ha1 ha hk' hj1 hj hl, if_neg (fun (x : a = i ∧ anc s.par i j) => hn1 (x.1 ▸ x.2)),
      putBlock_low h hc _ _ h1 hi ha1 ha hk' hj1 hj hl, if_neg (fun (x : j = i ∧ anc s.par i a ∧ a ≠ i) => hn2 (x.1 ▸ x.2.1))]
    exact ih.other a ha1 ha k' hk' j hj1 hj hn1 hn2 l hl

/-- entries of a matrix that holds, for the joints from `k` on, their rows on their subtrees -/
structure UpC (s : Sys K) (E : ℕ → ℕ → ℕ → ℕ → K) (C0 : ℕ → ℕ → K) (k : ℕ) (C : ℕ → ℕ → K) : Prop where
  row : ∀ i, 1 ≤ i → k ≤ i → i < s.n → ∀ k', k' < s.jnv i → ∀ j, j < s.n → anc s.par i j →
    ∀ l, l < s.jnv j → C (s.iv i + k') (s.iv j + l) = E i k' j l
  other : ∀ i, 1 ≤ i → i < s.n → ∀ k', k' < s.jnv i → ∀ j, 1 ≤ j → j < s.n → ¬ anc s.par i j →
    ∀ l, l < s.jnv j → C (s.iv i + k') (s.iv j + l) = C0 (s.iv i + k') (s.iv j + l)

theorem UpC.step (h : s.Packed) (hc : Compact s.par s.n) {E : ℕ → ℕ → ℕ → ℕ → K} {C0 C : ℕ → ℕ → K} {i : ℕ}
    (h1 : 1 ≤ i) (hi : i < s.n) (ih : UpC s E C0 (i + 1) C) {R : ℕ → ℕ → K}
    (hR : ∀ j, j < s.n → anc s.par i j → ∀ l, l < s.jnv j → ∀ k, k < s.jnv i →
      R k (s.iv j + l - s.iv i) = E i k j l) :
    UpC s E C0 i (putBlock C (s.iv i) (s.iv i) (s.jnv i) (s.nvSub i) R) := by
  classical
  have hp := h.par
  constructor
  · intro a ha1 hia ha k' hk' j hj hanc l hl
    have hj1 : 1 ≤ j := le_trans ha1 (anc_le hp j hj hanc)
    rw [putBlock_row h hc _ _ h1 hi ha1 ha hk' hj1 hj hl]
    by_cases e : a = i
    · subst e; rw [if_pos ⟨rfl, hanc⟩]; exact hR j hj hanc l hl k' hk'
    · rw [if_neg (fun x => e x.1)]
      exact ih.row a ha1 (by omega) ha k' hk' j hj hanc l hl
  · intro a ha1 ha k' hk' j hj1 hj hn1 l hl
    rw [putBlock_row h hc _ _ h1 hi ha1 ha hk' hj1 hj hl, if_neg (fun (x : a = i ∧ anc s.par i j) => hn1 (x.1 ▸ x.2))]
    exact ih.other a ha1 ha k' hk' j hj1 hj hn1 l hl

/-! ## backward pass -/

theorem Sys.dBm_acc (hp : ParOk s.par s.n) (q v : ℕ → K) :
    IsAcc s.par s.n (fun _ x => x) (s.dB q v) (s.dBm q v) := fun _ h1 hi => sum_subtree hp _ h1 hi
theorem Sys.oFm_acc (hp : ParOk s.par s.n) (q v a : ℕ → K) (fext : ℕ → Force K) :
    IsAcc s.par s.n (fun _ x => x) (s.oF (-s.grav) q v a fext) (s.oFm q v a fext) :=
  fun _ h1 hi => sum_subtree hp _ h1 hi

/-- columns and sums on the subtrees, joints from `k` on -/
structure RdB (s : Sys K) (q v a : ℕ → K) (fext : ℕ → Force K) (k : ℕ) (d : Data K) : Prop where
  J : JOk s q s.n d.J
  dVq : ∀ i, 1 ≤ i → i < s.n → ∀ k, k < s.jnv i → d.dVdq (s.iv i + k) = s.dVq q v i k
  dAq : ∀ i, 1 ≤ i → i < s.n → ∀ k, k < s.jnv i → d.dAdq (s.iv i + k) = s.dAq q v a i k
  dAv : ∀ i, 1 ≤ i → i < s.n → ∀ k, k < s.jnv i → d.dAdv (s.iv i + k) = s.dAv q v i k
  mass : ∀ i, 1 ≤ i → i < s.n → Inertia.MassOk (d.oYcrb i).mass
  acc : PAcc s.par s.n (fun _ x => x) (s.oI q) k (fun i => (d.oYcrb i).matrix)
  accB : PAcc s.par s.n (fun _ x => x) (s.dB q v) k d.doYcrb
  accF : PAcc s.par s.n (fun _ x => x) (s.oF (-s.grav) q v a fext) k d.of
  Fa : ∀ j, 1 ≤ j → k ≤ j → j < s.n → ∀ l, l < s.jnv j → d.dFda (s.iv j + l) = (s.oYm q j).mulMF (s.Jc q j l)
  T : ∀ j, 1 ≤ j → k ≤ j → j < s.n → ∀ l, l < s.jnv j → d.Fcrb 0 (s.iv j + l) = (s.dBm q v j).tr.mulMF (s.Jc q j l)
  Fq : ∀ j, 1 ≤ j → k ≤ j → j < s.n → ∀ l, l < s.jnv j → d.dFdq (s.iv j + l)
      = (s.oYm q j).mulMF (s.dAq q v a j l) + (s.dBm q v j).mulMF (s.dVq q v j l)
        + (s.Jc q j l).crossF (s.oFm q v a fext j)
  Fv : ∀ j, 1 ≤ j → k ≤ j → j < s.n → ∀ l, l < s.jnv j → d.dFdv (s.iv j + l)
      = (s.oYm q j).mulMF (s.dAv q v j l) + (s.dBm q v j).mulMF (s.Jc q j l)
  tau : ∀ j, 1 ≤ j → k ≤ j → j < s.n → ∀ l, l < s.jnv j → d.tau (s.iv j + l) = (s.Jc q j l).dot (s.oFm q v a fext j)

theorem rneaDerBwd_same (i : ℕ) (x : Data K × RneaDer K) :
    (rneaDerBwd s i x).1.J = x.1.J ∧ (rneaDerBwd s i x).1.dVdq = x.1.dVdq ∧ (rneaDerBwd s i x).1.dAdq = x.1.dAdq ∧
      (rneaDerBwd s i x).1.dAdv = x.1.dAdv := by
  obtain ⟨d, o⟩ := x
  unfold rneaDerBwd
  by_cases hz : s.par i > 0
  · simp only [hz, if_true, and_self]
  · simp only [hz, if_false, and_self]

theorem rneaDerBwd_acc (i : ℕ) (x : Data K × RneaDer K) :
    (rneaDerBwd s i x).1.oYcrb = (if s.par i > 0 then
        upd x.1.oYcrb (s.par i) (Inertia.addAssign (x.1.oYcrb (s.par i)) (x.1.oYcrb i)) else x.1.oYcrb) ∧
    (rneaDerBwd s i x).1.doYcrb = (if s.par i > 0 then
        upd x.1.doYcrb (s.par i) (x.1.doYcrb (s.par i) + x.1.doYcrb i) else x.1.doYcrb) ∧
    (rneaDerBwd s i x).1.of = (if s.par i > 0 then
        upd x.1.of (s.par i) (x.1.of (s.par i) + x.1.of i) else x.1.of) := by
  obtain ⟨d, o⟩ := x
  unfold rneaDerBwd
  by_cases hz : s.par i > 0
  · simp only [hz, if_true, and_self]
  · simp only [hz, if_false, and_self]

/-- columns of joint `i` after its step -/
theorem rneaDerBwd_cols (i : ℕ) (x : Data K × RneaDer K) {k : ℕ} (hk : k < s.jnv i) :
    let d := x.1
    let e := (rneaDerBwd s i x).1
    let c := s.iv i + k
    e.tau c = (d.J c).dot (d.of i) ∧ e.dFda c = (d.oYcrb i).mul (d.J c) ∧
    e.Fcrb 0 c = (d.doYcrb i).tr.mulMF (d.J c) ∧
    e.dFdq c = (if s.par i > 0 then (d.doYcrb i).mulMF (d.dVdq c) + (d.oYcrb i).mul (d.dAdq c)
      else (d.oYcrb i).mul (d.dAdq c)) + (d.J c).crossF (d.of i) ∧
    e.dFdv c = (d.doYcrb i).mulMF (d.J c) + (d.oYcrb i).mul (d.dAdv c) := by
  obtain ⟨d, o⟩ := x
  unfold rneaDerBwd
  by_cases hz : s.par i > 0
  · simp only [hz, if_true, putSeg_at _ _ hk, upd_self, and_self]
  · simp only [hz, if_false, putSeg_at _ _ hk, upd_self, and_self]

theorem rneaDerBwd_out (i : ℕ) (x : Data K × RneaDer K) {c : ℕ} (hc : ¬ (s.iv i ≤ c ∧ c < s.iv i + s.jnv i)) :
    let d := x.1
    let e := (rneaDerBwd s i x).1
    e.tau c = d.tau c ∧ e.dFda c = d.dFda c ∧ e.Fcrb 0 c = d.Fcrb 0 c ∧ e.dFdq c = d.dFdq c ∧ e.dFdv c = d.dFdv c := by
  obtain ⟨d, o⟩ := x
  unfold rneaDerBwd
  by_cases hz : s.par i > 0
  · simp only [hz, if_true, putSeg_out _ _ hc, upd_self, and_self]
  · simp only [hz, if_false, putSeg_out _ _ hc, upd_self, and_self]

/-- the matrices, in terms of the columns after the step (for `dq`, before `J ×* f` is added to the columns of the
joint) -/
theorem rneaDerBwd_mats (i : ℕ) (x : Data K × RneaDer K) :
    ∃ Fq : ℕ → Force K,
    (∀ k, k < s.jnv i → Fq (s.iv i + k) = (if s.par i > 0 then (x.1.doYcrb i).mulMF (x.1.dVdq (s.iv i + k))
        + (x.1.oYcrb i).mul (x.1.dAdq (s.iv i + k)) else (x.1.oYcrb i).mul (x.1.dAdq (s.iv i + k)))) ∧
    (∀ c, ¬ (s.iv i ≤ c ∧ c < s.iv i + s.jnv i) → Fq c = x.1.dFdq c) ∧
    (let d := x.1
     let o := x.2
     let e := (rneaDerBwd s i x).1
     let ip := s.iv i + s.jnv i
     let np := s.nvSub i - s.jnv i
     (rneaDerBwd s i x).2.da = putBlock o.da (s.iv i) (s.iv i) (s.jnv i) (s.nvSub i)
        (fun r c => (d.J (s.iv i + r)).dot (e.dFda (s.iv i + c))) ∧
     (rneaDerBwd s i x).2.dq = putBlock (putBlock o.dq ip (s.iv i) np (s.jnv i)
        (fun r c => (d.dAdq (s.iv i + c)).dot (e.dFda (ip + r)) + (d.dVdq (s.iv i + c)).dot (e.Fcrb 0 (ip + r))))
        (s.iv i) (s.iv i) (s.jnv i) (s.nvSub i) (fun r c => (d.J (s.iv i + r)).dot (Fq (s.iv i + c))) ∧
     (rneaDerBwd s i x).2.dv = putBlock (putBlock o.dv ip (s.iv i) np (s.jnv i)
        (fun r c => (d.dAdv (s.iv i + c)).dot (e.dFda (ip + r)) + (d.J (s.iv i + c)).dot (e.Fcrb 0 (ip + r))))
        (s.iv i) (s.iv i) (s.jnv i) (s.nvSub i) (fun r c => (d.J (s.iv i + r)).dot (e.dFdv (s.iv i + c)))) := by
  obtain ⟨d, o⟩ := x
  by_cases hz : s.par i > 0
  · refine ⟨putSeg (putSeg d.dFdq (s.iv i) (s.jnv i) (fun k => (d.doYcrb i).mulMF (d.dVdq (s.iv i + k)))) (s.iv i)
      (s.jnv i) (fun k => putSeg d.dFdq (s.iv i) (s.jnv i) (fun k => (d.doYcrb i).mulMF (d.dVdq (s.iv i + k)))
        (s.iv i + k) + (d.oYcrb i).mul (d.dAdq (s.iv i + k))), ?_, ?_, ?_⟩
    · intro k hk; simp only [hz, if_true, putSeg_at _ _ hk]
    · intro c hc; simp only [putSeg_out _ _ hc]
    · unfold rneaDerBwd; simp only [hz, if_true]; refine ⟨?_, ?_, ?_⟩ <;> trivial
  · refine ⟨putSeg d.dFdq (s.iv i) (s.jnv i) (fun k => (d.oYcrb i).mul (d.dAdq (s.iv i + k))), ?_, ?_, ?_⟩
    · intro k hk; simp only [hz, if_false, putSeg_at _ _ hk]
    · intro c hc; simp only [putSeg_out _ _ hc]
    · unfold rneaDerBwd; simp only [hz, if_false]; refine ⟨?_, ?_, ?_⟩ <;> trivial

theorem rneaDerBwd_step (h : s.Packed) (hc : Compact s.par s.n) {q v a : ℕ → K} {fext : ℕ → Force K} {i : ℕ}
    (h1 : 1 ≤ i) (hi : i < s.n) {x : Data K × RneaDer K} {o0 : RneaDer K} (ih : RdB s q v a fext (i + 1) x.1)
    (iq : DerC s (s.eQ q v a fext) o0.dq (i + 1) x.2.dq) (iv : DerC s (s.eD q v) o0.dv (i + 1) x.2.dv)
    (ia : UpC s (s.eA q) o0.da (i + 1) x.2.da) :
    RdB s q v a fext i (rneaDerBwd s i x).1 ∧ DerC s (s.eQ q v a fext) o0.dq i (rneaDerBwd s i x).2.dq ∧
      DerC s (s.eD q v) o0.dv i (rneaDerBwd s i x).2.dv ∧ UpC s (s.eA q) o0.da i (rneaDerBwd s i x).2.da := by
  have hp := h.par
  have hpi := hp.2 i h1 hi
  have hYi : (x.1.oYcrb i).matrix = s.oYm q i := ih.acc.eq_acc hp (Sys.oYm_acc hp q) i h1 hi le_rfl
  have hBi : x.1.doYcrb i = s.dBm q v i := ih.accB.eq_acc hp (Sys.dBm_acc hp q v) i h1 hi le_rfl
  have hFi : x.1.of i = s.oFm q v a fext i := ih.accF.eq_acc hp (Sys.oFm_acc hp q v a fext) i h1 hi le_rfl
  have hmul : ∀ m, (x.1.oYcrb i).mul m = (s.oYm q i).mulMF m := by
    intro m; rw [← Inertia.matrix_mulMF, hYi]
  have ne : ∀ j, 1 ≤ j → j < s.n → j ≠ i → ∀ k, k < s.jnv j → ¬ (s.iv i ≤ s.iv j + k ∧ s.iv j + k < s.iv i + s.jnv i) := by
    rintro j j1 hj e k hk ⟨x, y⟩
    exact e (h.inj j1 hj h1 hi hk (l := s.iv j + k - s.iv i) (by omega) (by omega)).1
  obtain ⟨s1, s2, s3, s4⟩ := rneaDerBwd_same (s := s) i x
  obtain ⟨a1, a2, a3⟩ := rneaDerBwd_acc (s := s) i x
  have hif : ∀ k, k < s.jnv i → (if s.par i > 0 then (x.1.doYcrb i).mulMF (x.1.dVdq (s.iv i + k))
        + (x.1.oYcrb i).mul (x.1.dAdq (s.iv i + k)) else (x.1.oYcrb i).mul (x.1.dAdq (s.iv i + k)))
      = (s.oYm q i).mulMF (s.dAq q v a i k) + (s.dBm q v i).mulMF (s.dVq q v i k) := by
    intro k hk
    rw [ih.dVq i h1 hi k hk, ih.dAq i h1 hi k hk, hmul, hBi]
    split
    · rw [add_comm]
    · rename_i hz
      have : s.dVq q v i k = 0 := by
        unfold Sys.dVq; rw [show s.par i = 0 by omega, Sys.oV_zero, Motion.zero_cross]
      rw [this, M6.mulMF_zero, add_zero]
  have cFa : ∀ j, 1 ≤ j → i ≤ j → j < s.n → ∀ l, l < s.jnv j →
      (rneaDerBwd s i x).1.dFda (s.iv j + l) = (s.oYm q j).mulMF (s.Jc q j l) := by
    intro j j1 hij hj l hl
    by_cases e : j = i
    · subst e; rw [(rneaDerBwd_cols j x hl).2.1, ih.J j j1 hj l hl, hmul]
    · rw [(rneaDerBwd_out i x (ne j j1 hj e l hl)).2.1]; exact ih.Fa j j1 (by omega) hj l hl
  have cT : ∀ j, 1 ≤ j → i ≤ j → j < s.n → ∀ l, l < s.jnv j →
      (rneaDerBwd s i x).1.Fcrb 0 (s.iv j + l) = (s.dBm q v j).tr.mulMF (s.Jc q j l) := by
    intro j j1 hij hj l hl
    by_cases e : j = i
    · subst e; rw [(rneaDerBwd_cols j x hl).2.2.1, ih.J j j1 hj l hl, hBi]
    · rw [(rneaDerBwd_out i x (ne j j1 hj e l hl)).2.2.1]; exact ih.T j j1 (by omega) hj l hl
  have cFv : ∀ j, 1 ≤ j → i ≤ j → j < s.n → ∀ l, l < s.jnv j →
      (rneaDerBwd s i x).1.dFdv (s.iv j + l)
        = (s.oYm q j).mulMF (s.dAv q v j l) + (s.dBm q v j).mulMF (s.Jc q j l) := by
    intro j j1 hij hj l hl
    by_cases e : j = i
    · subst e; rw [(rneaDerBwd_cols j x hl).2.2.2.2, ih.J j j1 hj l hl, ih.dAv j j1 hj l hl, hBi, hmul, add_comm]
    · rw [(rneaDerBwd_out i x (ne j j1 hj e l hl)).2.2.2.2]; exact ih.Fv j j1 (by omega) hj l hl
  obtain ⟨Fq, f1, f2, m1, m2, m3⟩ := rneaDerBwd_mats (s := s) i x
  have nanc : ∀ j, j < s.n → anc s.par i j → j ≠ i → ¬ anc s.par j i := by
    intro j hj ha hne hb
    have := anc_le hp j hj ha
    have := anc_le hp i hi hb
    omega
  have j1' : ∀ j, j < s.n → anc s.par i j → 1 ≤ j := fun j hj ha => le_trans h1 (anc_le hp j hj ha)
  have colR : ∀ j, j < s.n → anc s.par i j → ∀ l, l < s.jnv j →
      s.iv i + (s.iv j + l - s.iv i) = s.iv j + l := by
    intro j hj ha l hl
    have := ((h.nvSub_iff hc h1 hi (j1' j hj ha) hj hl).2 ha).1
    omega
  have colL : ∀ j, j < s.n → anc s.par i j → j ≠ i → ∀ l, l < s.jnv j →
      s.iv i + s.jnv i + (s.iv j + l - (s.iv i + s.jnv i)) = s.iv j + l := by
    intro j hj ha hne l hl
    have := h.mono h1 (lt_of_le_of_ne (anc_le hp j hj ha) (Ne.symm hne)) hj
    omega
  have low : ∀ j, j < s.n → anc s.par i j → j ≠ i → ∀ l, l < s.jnv j → ∀ y z : Motion K,
      y.dot ((rneaDerBwd s i x).1.dFda (s.iv j + l)) + z.dot ((rneaDerBwd s i x).1.Fcrb 0 (s.iv j + l))
        = (s.Jc q j l).dot ((s.oYm q j).mulMF y + (s.dBm q v j).mulMF z) := by
    intro j hj ha hne l hl y z
    have hij := anc_le hp j hj ha
    rw [cFa j (j1' j hj ha) hij hj l hl, cT j (j1' j hj ha) hij hj l hl, M6.dot_symm' (Sys.oYm_symm q j),
      ← M6.dot_mulMF, Motion.dot_add]
  refine ⟨⟨?_, ?_, ?_, ?_, ?_, ?_, ?_, ?_, cFa, cT, ?_, cFv, ?_⟩, ?_, ?_, ?_⟩
  · rw [s1]; exact ih.J
  · rw [s2]; exact ih.dVq
  · rw [s3]; exact ih.dAq
  · rw [s4]; exact ih.dAv
  · intro j j1 hj
    rw [a1]
    split
    · rename_i hz
      have hadd := Inertia.addAssign_matrix (ih.mass (s.par i) hz (by omega)) (ih.mass i h1 hi)
      by_cases hjp : j = s.par i
      · subst hjp; rw [upd_self]; exact hadd.2
      · rw [upd_ne _ _ hjp]; exact ih.mass j j1 hj
    · exact ih.mass j j1 hj
  · apply PAcc.step hp h1 hi ih.acc
    intro j j1
    split
    all_goals rw [a1]
    · rename_i e; subst e
      have hz : s.par i > 0 := j1
      have hadd := Inertia.addAssign_matrix (ih.mass (s.par i) hz (by omega)) (ih.mass i h1 hi)
      rw [if_pos hz, upd_self]; exact hadd.1
    · rename_i e
      split
      · rw [upd_ne _ _ e]
      · rfl
  · apply PAcc.step hp h1 hi ih.accB
    intro j j1
    split
    all_goals rw [a2]
    · rename_i e; subst e
      rw [if_pos (show s.par i > 0 from j1), upd_self]
    · rename_i e
      split
      · rw [upd_ne _ _ e]
      · rfl
  · apply PAcc.step hp h1 hi ih.accF
    intro j j1
    split
    all_goals rw [a3]
    · rename_i e; subst e
      rw [if_pos (show s.par i > 0 from j1), upd_self]
    · rename_i e
      split
      · rw [upd_ne _ _ e]
      · rfl
  · intro j j1 hij hj l hl
    by_cases e : j = i
    · subst e; rw [(rneaDerBwd_cols j x hl).2.2.2.1, hif l hl, ih.J j j1 hj l hl, hFi]
    · rw [(rneaDerBwd_out i x (ne j j1 hj e l hl)).2.2.2.1]; exact ih.Fq j j1 (by omega) hj l hl
  · intro j j1 hij hj l hl
    by_cases e : j = i
    · subst e; rw [(rneaDerBwd_cols j x hl).1, ih.J j j1 hj l hl, hFi]
    · rw [(rneaDerBwd_out i x (ne j j1 hj e l hl)).1]; exact ih.tau j j1 (by omega) hj l hl
  · rw [m2]
    refine iq.step h hc h1 hi ?_ ?_
    · intro j hj ha hne l hl k hk
      rw [colL j hj ha hne l hl, low j hj ha hne l hl, ih.dAq i h1 hi k hk, ih.dVq i h1 hi k hk]
      unfold Sys.eQ
      rw [if_neg (nanc j hj ha hne), if_pos ha]
    · intro j hj ha l hl k hk
      rw [colR j hj ha l hl, ih.J i h1 hi k hk]
      unfold Sys.eQ
      rw [if_pos ha]
      by_cases e : i = j
      · subst e; rw [if_pos rfl, f1 l hl, hif l hl, add_zero]
      · rw [if_neg e, f2 _ (ne j (j1' j hj ha) hj (Ne.symm e) l hl),
          ih.Fq j (j1' j hj ha) (by have := anc_le hp j hj ha; omega) hj l hl]
  · rw [m3]
    refine iv.step h hc h1 hi ?_ ?_
    · intro j hj ha hne l hl k hk
      rw [colL j hj ha hne l hl, low j hj ha hne l hl, ih.dAv i h1 hi k hk, ih.J i h1 hi k hk]
      unfold Sys.eD
      rw [if_neg (nanc j hj ha hne), if_pos ha]
    · intro j hj ha l hl k hk
      rw [colR j hj ha l hl, ih.J i h1 hi k hk]
      unfold Sys.eD
      rw [if_pos ha, cFv j (j1' j hj ha) (anc_le hp j hj ha) hj l hl]
  · rw [m1]
    refine ia.step h hc h1 hi ?_
    intro j hj ha l hl k hk
    rw [colR j hj ha l hl, ih.J i h1 hi k hk]
    unfold Sys.eA
    rw [if_pos ha, cFa j (j1' j hj ha) (anc_le hp j hj ha) hj l hl]

/-- both passes -/
theorem rneaDerBwd_ok (h : s.Packed) (hc : Compact s.par s.n) (hm : s.MassesOk) {q v a : ℕ → K} {fext : ℕ → Force K}
    {d : Data K} (hd : RdF s q v a (s.oF (-s.grav) q v a fext) s.n d) (o : RneaDer K) :
    let x := bwd (rneaDerBwd s) s.n (d, o)
    RdB s q v a fext 1 x.1 ∧ DerC s (s.eQ q v a fext) o.dq 1 x.2.dq ∧ DerC s (s.eD q v) o.dv 1 x.2.dv ∧
      UpC s (s.eA q) o.da 1 x.2.da := by
  have start : ∀ {M : Type u} [AddCommGroup M] (x0 x : ℕ → M), (∀ i, 1 ≤ i → i < s.n → x i = x0 i) →
      PAcc s.par s.n (fun _ x => x) x0 s.n x := by
    intro M _ x0 x hx i h1 hi
    rw [filter_eq_empty_iff.2, sum_empty, add_zero]
    · exact hx i h1 hi
    · intro c hc'; have := (mem_kids.1 hc').1.2; omega
  apply bwd_ind (P := fun k (x : Data K × RneaDer K) => RdB s q v a fext k x.1 ∧
    DerC s (s.eQ q v a fext) o.dq k x.2.dq ∧ DerC s (s.eD q v) o.dv k x.2.dv ∧ UpC s (s.eA q) o.da k x.2.da) h.par.1
  · refine ⟨⟨hd.J, hd.dVq, hd.dAq, hd.dAv, ?_, ?_, ?_, ?_, fun i _ _ _ => by omega, fun i _ _ _ => by omega,
      fun i _ _ _ => by omega, fun i _ _ _ => by omega, fun i _ _ _ => by omega⟩, DerC.start .., DerC.start ..,
      fun i _ _ _ => by omega, fun i _ _ k' _ j _ _ _ l _ => rfl⟩
    · intro i h1 hi; rw [hd.Y i h1 hi]; exact hm i h1 hi
    · apply start
      intro i h1 hi; rw [hd.Y i h1 hi]; rfl
    · exact start _ _ hd.B
    · exact start _ _ hd.of
  · intro i x h1 hi ⟨b1, b2, b3, b4⟩
    exact rneaDerBwd_step h hc h1 hi b1 b2 b3 b4

end Pin
