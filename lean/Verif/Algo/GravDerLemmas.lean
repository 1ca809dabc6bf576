import Verif.Algo.RneaDerLemmas
import Verif.Props.Dynamics

/-! # What the passes of the derivatives of the gravity torque compute -/

set_option linter.unusedSectionVars false

namespace Pin
open Finset
universe u
variable {K : Type u} [Field K] {s : Sys K}

/-! ## at rest -/

local notation "𝟎" => (fun _ : ℕ => (0 : K))

theorem Sys.oV_rest (hp : ParOk s.par s.n) (q : ℕ → K) {i : ℕ} (hi : i < s.n) : s.oV q 𝟎 i = 0 := by
  unfold Sys.oV; rw [s.V_zero_vel hp q i hi, SE3.act_zero]

theorem Sys.wA_rest (hp : ParOk s.par s.n) {q : ℕ → K} (hq : s.At q) (hb : s.RestBias q) {i : ℕ} (hi : i < s.n) :
    s.wA (-s.grav) q 𝟎 𝟎 i = -s.grav := by
  unfold Sys.wA
  rw [Sys.A_rest hp hb i hi]
  unfold Sys.base
  rw [s.base_eq hp hq (-s.grav) i hi, SE3.act_actInv (s.oM_valid hp hq i hi)]

theorem Sys.oF_rest (hp : ParOk s.par s.n) {q : ℕ → K} (hq : s.At q) (hb : s.RestBias q) (fext : ℕ → Force K) {i : ℕ}
    (hi : i < s.n) :
    s.oF (-s.grav) q 𝟎 𝟎 fext i = (s.oI q i).mulMF (-s.grav) - (s.oM q i).actF (fext i) := by
  rw [Sys.oF_eq hp hq _ _ _ _ hi, Sys.wA_rest hp hq hb hi, Sys.oV_rest hp q hi]
  congr 1
  rw [M6.mulMF_zero]
  ext <;> simp [Motion.crossF]

theorem Sys.dVq_rest (hp : ParOk s.par s.n) (q : ℕ → K) {j : ℕ} (j1 : 1 ≤ j) (hj : j < s.n) (l : ℕ) :
    s.dVq q 𝟎 j l = 0 := by
  unfold Sys.dVq
  rw [Sys.oV_rest hp q (by have := hp.2 j j1 hj; omega), Motion.zero_cross]

theorem Sys.dAq_rest (hp : ParOk s.par s.n) {q : ℕ → K} (hq : s.At q) (hb : s.RestBias q) {j : ℕ} (j1 : 1 ≤ j)
    (hj : j < s.n) (l : ℕ) : s.dAq q 𝟎 𝟎 j l = (-s.grav).cross (s.Jc q j l) := by
  have hpj := hp.2 j j1 hj
  unfold Sys.dAq
  rw [Sys.wA_rest hp hq hb (by omega), Sys.oV_rest hp q (by omega), Motion.zero_cross, add_zero]

/-! ## forward pass -/

/-- what the forward pass leaves, joints below `m` -/
structure GdF (s : Sys K) (q : ℕ → K) (F : ℕ → Force K) (m : ℕ) (d : Data K) : Prop where
  g0 : d.oa_gf 0 = -s.grav
  pl : PlOk s q m d
  J : JOk s q m d.J
  Y : ∀ i, 1 ≤ i → i < m → d.oYcrb i = (s.Y i).act (s.oM q i)
  of : ∀ i, 1 ≤ i → i < m → d.of i = F i
  dAq : ∀ i, 1 ≤ i → i < m → ∀ k, k < s.jnv i → d.dAdq (s.iv i + k) = (-s.grav).cross (s.Jc q i k)

theorem gravDerFwd_step (h : s.Packed) {q : ℕ → K} {F : ℕ → Force K} {i : ℕ} (h1 : 1 ≤ i)
    (hi : i < s.n) {d : Data K} (ih : GdF s q F i d) (g : Force K)
    (hF : F i = (s.oI q i).mulMF (-s.grav) - (s.oM q i).actF g) :
    GdF s q F (i + 1) { gravDerFwd s q i d with
      of := upd (gravDerFwd s q i d).of i ((gravDerFwd s q i d).of i - ((gravDerFwd s q i d).oMi i).actF g) } := by
  have hp := h.par
  have hpi := hp.2 i h1 hi
  have e := oM_code hp (q := q) h1 hi (o := d.oMi) (fun j a b => (ih.pl j a b).2.1)
  have eo : (gravDerFwd s q i d).oMi i = s.oM q i := by
    simp only [gravDerFwd, upd_self]
    exact e
  have eoi : (gravDerFwd s q i d).oMi = upd d.oMi i (s.oM q i) := by
    rw [← eo]; funext j
    by_cases hji : j = i
    · subst hji; rw [upd_self]
    · rw [upd_ne _ _ hji]; simp only [gravDerFwd, upd_ne _ _ hji]
  have eJ : (gravDerFwd s q i d).J = putSeg d.J (s.iv i) (s.jnv i) (fun k => ((gravDerFwd s q i d).oMi i).act
      (((gravDerFwd s q i d).joints i).S k)) := rfl
  have eA : (gravDerFwd s q i d).dAdq = putSeg d.dAdq (s.iv i) (s.jnv i)
      (fun k => (d.oa_gf 0).cross ((gravDerFwd s q i d).J (s.iv i + k))) := rfl
  have eY : (gravDerFwd s q i d).oYcrb = upd d.oYcrb i ((s.Y i).act ((gravDerFwd s q i d).oMi i)) := by
    simp only [gravDerFwd, upd_self]
  have eF : (gravDerFwd s q i d).of = upd d.of i (((s.Y i).act ((gravDerFwd s q i d).oMi i)).mul (d.oa_gf 0)) := by
    simp only [gravDerFwd, upd_self]
  have cJ : JOk s q (i + 1) (gravDerFwd s q i d).J := by
    intro j j1 hj k hk
    rw [eJ]
    by_cases hji : j = i
    · subst hji
      rw [putSeg_at _ _ hk, eo]
      simp [gravDerFwd, Joint.calc, Sys.Jc, Sys.S]
    · rw [h.putSeg_ne _ _ h1 hi j1 (by omega) hk hji]
      exact ih.J j j1 (by omega) k hk
  refine ⟨ih.g0, ?_, cJ, ?_, ?_, ?_⟩ <;> dsimp only
  · intro j hj1 hj
    by_cases hji : j = i
    · subst hji
      refine ⟨?_, eo, ?_, ?_⟩ <;> simp [gravDerFwd, Joint.calc, Sys.S, Sys.X]
    · have := ih.pl j hj1 (by omega)
      simp [gravDerFwd, upd_ne _ _ hji, this]
  · intro j j1 hj
    rw [eY]
    by_cases hji : j = i
    · subst hji; rw [upd_self, eo]
    · rw [upd_ne _ _ hji]; exact ih.Y j j1 (by omega)
  · intro j j1 hj
    by_cases hji : j = i
    · subst hji
      rw [upd_self, eF, upd_self, eo, ih.g0, hF]
      unfold Sys.oI
      rw [Inertia.matrix_mulMF]
    · rw [upd_ne _ _ hji, eF, upd_ne _ _ hji]; exact ih.of j j1 (by omega)
  · intro j j1 hj k hk
    rw [eA]
    by_cases hji : j = i
    · subst hji
      rw [putSeg_at _ _ hk, cJ j j1 (by omega) k hk, ih.g0]
    · rw [h.putSeg_ne _ _ h1 hi j1 (by omega) hk hji]
      exact ih.dAq j j1 (by omega) k hk

theorem gravDerFwdFext_ok (h : s.Packed) {q : ℕ → K} (hq : s.At q) (hb : s.RestBias q) (fext : ℕ → Force K) {d : Data K}
    (h0 : d.oa_gf 0 = -s.grav) :
    GdF s q (s.oF (-s.grav) q 𝟎 𝟎 fext) s.n (fwd (fun i d =>
      let d := gravDerFwd s q i d
      { d with of := upd d.of i (d.of i - (d.oMi i).actF (fext i)) }) s.n d) := by
  apply fwd_ind (P := fun k (d : Data K) => GdF s q (s.oF (-s.grav) q 𝟎 𝟎 fext) k d) h.par.1
  · exact ⟨h0, fun i _ _ => by omega, fun i _ _ => by omega, fun i _ _ => by omega, fun i _ _ => by omega,
      fun i _ _ => by omega⟩
  · intro i d h1 hi ih
    exact gravDerFwd_step h h1 hi ih (fext i) (Sys.oF_rest h.par hq hb fext hi)

theorem gravDerFwd_ok (h : s.Packed) {q : ℕ → K} (hq : s.At q) (hb : s.RestBias q) {d : Data K}
    (h0 : d.oa_gf 0 = -s.grav) :
    GdF s q (s.oF (-s.grav) q 𝟎 𝟎 (fun _ => 0)) s.n (fwd (gravDerFwd s q) s.n d) := by
  apply fwd_ind (P := fun k (d : Data K) => GdF s q (s.oF (-s.grav) q 𝟎 𝟎 (fun _ => 0)) k d) h.par.1
  · exact ⟨h0, fun i _ _ => by omega, fun i _ _ => by omega, fun i _ _ => by omega, fun i _ _ => by omega,
      fun i _ _ => by omega⟩
  · intro i d h1 hi ih
    have := gravDerFwd_step h h1 hi ih 0 (Sys.oF_rest h.par hq hb (fun _ => 0) hi)
    have e : ∀ x : Data K, { x with of := upd x.of i (x.of i - (x.oMi i).actF 0) } = x := by
      intro x
      have : upd x.of i (x.of i - (x.oMi i).actF 0) = x.of := by
        rw [SE3.actF_zero, sub_zero]
        funext j; by_cases e : j = i
        · subst e; rw [upd_self]
        · rw [upd_ne _ _ e]
      rw [this]
    rwa [e] at this

/-! ## rows -/

variable [LinearOrder K] [IsStrictOrderedRing K] [HasEps K]

/-- entries of a matrix that holds, for the joints from `k` on, their rows -/
structure RowC (s : Sys K) (E : ℕ → ℕ → ℕ → ℕ → K) (C0 : ℕ → ℕ → K) (k : ℕ) (C : ℕ → ℕ → K) : Prop where
  row : ∀ i, 1 ≤ i → k ≤ i → i < s.n → ∀ k', k' < s.jnv i → ∀ j, 1 ≤ j → j < s.n → (anc s.par i j ∨ anc s.par j i) →
    ∀ l, l < s.jnv j → C (s.iv i + k') (s.iv j + l) = E i k' j l
  other : ∀ i, 1 ≤ i → i < s.n → ∀ k', k' < s.jnv i → ∀ j, 1 ≤ j → j < s.n → ¬ anc s.par i j →
    ¬ anc s.par j i → ∀ l, l < s.jnv j → C (s.iv i + k') (s.iv j + l) = C0 (s.iv i + k') (s.iv j + l)

theorem RowC.start (E : ℕ → ℕ → ℕ → ℕ → K) (C0 : ℕ → ℕ → K) : RowC s E C0 s.n C0 :=
  ⟨fun i _ _ _ => by omega, fun i _ _ k' _ j _ _ _ _ l _ => rfl⟩

/-- the rows of joint `i`: a block on its subtree and one column after the other above it -/
theorem RowC.step (h : s.Packed) (hf : s.Full) (hc : Compact s.par s.n) {E : ℕ → ℕ → ℕ → ℕ → K} {C0 C : ℕ → ℕ → K}
    {i : ℕ} (h1 : 1 ≤ i) (hi : i < s.n) (ih : RowC s E C0 (i + 1) C) {R : ℕ → ℕ → K} (U : ℕ → ℕ → K)
    (hR : ∀ j, j < s.n → anc s.par i j → ∀ l, l < s.jnv j → ∀ k, k < s.jnv i →
      R k (s.iv j + l - s.iv i) = E i k j l)
    (hU : ∀ j, 1 ≤ j → j < s.n → anc s.par j (s.par i) → ∀ l, l < s.jnv j → ∀ k, k < s.jnv i →
      U (s.iv i + k) (s.iv j + l) = E i k j l) :
    RowC s E C0 i (rowLoop (parentsFromRow s) (fun j G => putBlock G (s.iv i) j (s.jnv i) 1
      (fun r _ => U (s.iv i + r) j)) (s.nv + 1) (parentsFromRow s (s.iv i))
      (putBlock C (s.iv i) (s.iv i) (s.jnv i) (s.nvSub i) R)) := by
  classical
  have hp := h.par
  have hpi := hp.2 i h1 hi
  have hself : ∀ a, 1 ≤ a → a < s.n → ∀ k', k' < s.jnv a →
      ((s.iv i ≤ s.iv a + k' ∧ s.iv a + k' < s.iv i + s.jnv i) ↔ a = i) := by
    intro a ha1 ha k' hk
    constructor
    · rintro ⟨x, y⟩
      exact (h.inj ha1 ha h1 hi hk (l := s.iv a + k' - s.iv i) (by omega) (by omega)).1
    · rintro rfl; omega
  have key : ∀ a, 1 ≤ a → a < s.n → ∀ k', k' < s.jnv a → ∀ j, 1 ≤ j → j < s.n → ∀ l, l < s.jnv j →
      rowLoop (parentsFromRow s) (fun j G => putBlock G (s.iv i) j (s.jnv i) 1
        (fun r _ => U (s.iv i + r) j)) (s.nv + 1) (parentsFromRow s (s.iv i))
        (putBlock C (s.iv i) (s.iv i) (s.jnv i) (s.nvSub i) R) (s.iv a + k') (s.iv j + l)
      = if a = i then (if anc s.par j (s.par i) then U (s.iv i + k') (s.iv j + l)
          else if anc s.par i j then R k' (s.iv j + l - s.iv i) else C (s.iv a + k') (s.iv j + l))
        else C (s.iv a + k') (s.iv j + l) := by
    intro a ha1 ha k' hk' j j1 hj l hl
    rw [colLoop_at h hf h1 hi j1 hj hl (fun j _ r => U r j), putBlock_row h hc _ _ h1 hi ha1 ha hk' j1 hj hl]
    have hs := hself a ha1 ha k' hk'
    by_cases e : a = i
    · subst e; simp only [hs.2 rfl, if_true, true_and]
    · simp only [e, hs, if_false, false_and]; split <;> rfl
  constructor
  · intro a ha1 hia ha k' hk' j j1 hj hanc l hl
    rw [key a ha1 ha k' hk' j j1 hj l hl]
    by_cases e : a = i
    · subst e
      rw [if_pos rfl]
      by_cases hu : anc s.par j (s.par a)
      · rw [if_pos hu]; exact hU j j1 hj hu l hl k' hk'
      · rw [if_neg hu]
        have hd : anc s.par a j := by
          rcases hanc with x | x
          · exact x
          · rcases (anc_step ha1 hpi).1 x with y | y
            · subst y; exact anc_refl hp hj
            · exact absurd y hu
        rw [if_pos hd]; exact hR j hj hd l hl k' hk'
    · rw [if_neg e]; exact ih.row a ha1 (by omega) ha k' hk' j j1 hj hanc l hl
  · intro a ha1 ha k' hk' j j1 hj hn1 hn2 l hl
    rw [key a ha1 ha k' hk' j j1 hj l hl]
    by_cases e : a = i
    · subst e
      rw [if_pos rfl, if_neg (fun x => hn2 ((anc_step ha1 hpi).2 (Or.inr x))), if_neg hn1]
      exact ih.other a ha1 ha k' hk' j j1 hj hn1 hn2 l hl
    · rw [if_neg e]; exact ih.other a ha1 ha k' hk' j j1 hj hn1 hn2 l hl

/-! ## backward pass -/

/-- columns and sums on the subtrees, joints from `k` on -/
structure GdB (s : Sys K) (q : ℕ → K) (fext : ℕ → Force K) (k : ℕ) (d : Data K) (g : ℕ → K) : Prop where
  J : JOk s q s.n d.J
  dAq : ∀ i, 1 ≤ i → i < s.n → ∀ k, k < s.jnv i → d.dAdq (s.iv i + k) = s.dAq q 𝟎 𝟎 i k
  mass : ∀ i, 1 ≤ i → i < s.n → Inertia.MassOk (d.oYcrb i).mass
  acc : PAcc s.par s.n (fun _ x => x) (s.oI q) k (fun i => (d.oYcrb i).matrix)
  accF : PAcc s.par s.n (fun _ x => x) (s.oF (-s.grav) q 𝟎 𝟎 fext) k d.of
  Fq : ∀ j, 1 ≤ j → k ≤ j → j < s.n → ∀ l, l < s.jnv j → d.dFdq (s.iv j + l)
      = (s.oYm q j).mulMF (s.dAq q 𝟎 𝟎 j l) + (s.Jc q j l).crossF (s.oFm q 𝟎 𝟎 fext j)
  tau : ∀ j, 1 ≤ j → k ≤ j → j < s.n → ∀ l, l < s.jnv j → g (s.iv j + l) = (s.Jc q j l).dot (s.oFm q 𝟎 𝟎 fext j)

theorem gravDerBwd_acc (i : ℕ) (x : Data K × (ℕ → K) × (ℕ → ℕ → K)) :
    (gravDerBwd s i x).1.J = x.1.J ∧ (gravDerBwd s i x).1.dAdq = x.1.dAdq ∧
    (gravDerBwd s i x).1.oYcrb = (if s.par i > 0 then
        upd x.1.oYcrb (s.par i) (Inertia.addAssign (x.1.oYcrb (s.par i)) (x.1.oYcrb i)) else x.1.oYcrb) ∧
    (gravDerBwd s i x).1.of = (if s.par i > 0 then
        upd x.1.of (s.par i) (x.1.of (s.par i) + x.1.of i) else x.1.of) := by
  obtain ⟨d, g, G⟩ := x
  unfold gravDerBwd
  by_cases hz : s.par i > 0
  · simp only [hz, if_true, and_self]
  · simp only [hz, if_false, and_self]

theorem gravDerBwd_cols (i : ℕ) (x : Data K × (ℕ → K) × (ℕ → ℕ → K)) {k : ℕ} (hk : k < s.jnv i) :
    (gravDerBwd s i x).2.1 (s.iv i + k) = (x.1.J (s.iv i + k)).dot (x.1.of i) ∧
    (gravDerBwd s i x).1.dFdq (s.iv i + k)
      = (x.1.oYcrb i).mul (x.1.dAdq (s.iv i + k)) + (x.1.J (s.iv i + k)).crossF (x.1.of i) := by
  obtain ⟨d, g, G⟩ := x
  unfold gravDerBwd
  by_cases hz : s.par i > 0
  · simp only [hz, if_true, putSeg_at _ _ hk, and_self]
  · simp only [hz, if_false, putSeg_at _ _ hk, and_self]

theorem gravDerBwd_out (i : ℕ) (x : Data K × (ℕ → K) × (ℕ → ℕ → K)) {c : ℕ}
    (hc : ¬ (s.iv i ≤ c ∧ c < s.iv i + s.jnv i)) :
    (gravDerBwd s i x).2.1 c = x.2.1 c ∧ (gravDerBwd s i x).1.dFdq c = x.1.dFdq c := by
  obtain ⟨d, g, G⟩ := x
  unfold gravDerBwd
  by_cases hz : s.par i > 0
  · simp only [hz, if_true, putSeg_out _ _ hc, and_self]
  · simp only [hz, if_false, putSeg_out _ _ hc, and_self]

theorem gravDerBwd_mat (i : ℕ) (x : Data K × (ℕ → K) × (ℕ → ℕ → K)) :
    (gravDerBwd s i x).2.2 = rowLoop (parentsFromRow s) (fun j G => putBlock G (s.iv i) j (s.jnv i) 1
      (fun r _ => (x.1.dAdq j).dot ((gravDerBwd s i x).1.Ag (s.iv i + r)))) (s.nv + 1) (parentsFromRow s (s.iv i))
      (putBlock x.2.2 (s.iv i) (s.iv i) (s.jnv i) (s.nvSub i) (fun r c => (x.1.J (s.iv i + r)).dot
        (putSeg x.1.dFdq (s.iv i) (s.jnv i) (fun k => (x.1.oYcrb i).mul (x.1.dAdq (s.iv i + k))) (s.iv i + c)))) ∧
    ∀ k, k < s.jnv i → (gravDerBwd s i x).1.Ag (s.iv i + k) = (x.1.oYcrb i).mul (x.1.J (s.iv i + k)) := by
  obtain ⟨d, g, G⟩ := x
  unfold gravDerBwd
  by_cases hz : s.par i > 0
  · simp only [hz, if_true]
    exact ⟨trivial, fun k hk => by rw [putSeg_at _ _ hk]⟩
  · simp only [hz, if_false]
    exact ⟨trivial, fun k hk => by rw [putSeg_at _ _ hk]⟩

theorem gravDerBwd_step (h : s.Packed) (hf : s.Full) (hc : Compact s.par s.n) {q : ℕ → K}
    {fext : ℕ → Force K} {i : ℕ} (h1 : 1 ≤ i) (hi : i < s.n) {x : Data K × (ℕ → K) × (ℕ → ℕ → K)} {G0 : ℕ → ℕ → K}
    (ih : GdB s q fext (i + 1) x.1 x.2.1) (iG : RowC s (s.eQ q 𝟎 𝟎 fext) G0 (i + 1) x.2.2) :
    GdB s q fext i (gravDerBwd s i x).1 (gravDerBwd s i x).2.1 ∧
      RowC s (s.eQ q 𝟎 𝟎 fext) G0 i (gravDerBwd s i x).2.2 := by
  have hp := h.par
  have hpi := hp.2 i h1 hi
  have hYi : (x.1.oYcrb i).matrix = s.oYm q i := ih.acc.eq_acc hp (Sys.oYm_acc hp q) i h1 hi le_rfl
  have hFi : x.1.of i = s.oFm q 𝟎 𝟎 fext i := ih.accF.eq_acc hp (Sys.oFm_acc hp q 𝟎 𝟎 fext) i h1 hi le_rfl
  have hmul : ∀ m, (x.1.oYcrb i).mul m = (s.oYm q i).mulMF m := by
    intro m; rw [← Inertia.matrix_mulMF, hYi]
  have ne : ∀ j, 1 ≤ j → j < s.n → j ≠ i → ∀ k, k < s.jnv j → ¬ (s.iv i ≤ s.iv j + k ∧ s.iv j + k < s.iv i + s.jnv i) := by
    rintro j j1 hj e k hk ⟨x, y⟩
    exact e (h.inj j1 hj h1 hi hk (l := s.iv j + k - s.iv i) (by omega) (by omega)).1
  obtain ⟨s1, s2, a1, a3⟩ := gravDerBwd_acc (s := s) i x
  have j1' : ∀ j, j < s.n → anc s.par i j → 1 ≤ j := fun j hj ha => le_trans h1 (anc_le hp j hj ha)
  have colR : ∀ j, j < s.n → anc s.par i j → ∀ l, l < s.jnv j →
      s.iv i + (s.iv j + l - s.iv i) = s.iv j + l := by
    intro j hj ha l hl
    have := ((h.nvSub_iff hc h1 hi (j1' j hj ha) hj hl).2 ha).1
    omega
  refine ⟨⟨?_, ?_, ?_, ?_, ?_, ?_, ?_⟩, ?_⟩
  · rw [s1]; exact ih.J
  · rw [s2]; exact ih.dAq
  · intro j j1 hj
    rw [a1]
    split
    · rename_i hz
      have hadd := Inertia.addAssign_matrix (ih.mass (s.par i) hz (by omega)) (ih.mass i h1 hi)
      by_cases hjp : j = s.par i
      · subst hjp; rw [upd_self]; exact hadd.2
      · rw [upd_ne _ _ hjp]; exact ih.mass j j1 hj
    · exact ih.mass j j1 hj
  · apply PAcc.step hp h1 hi ih.acc
    intro j j1
    split
    all_goals rw [a1]
    · rename_i e; subst e
      have hz : s.par i > 0 := j1
      have hadd := Inertia.addAssign_matrix (ih.mass (s.par i) hz (by omega)) (ih.mass i h1 hi)
      rw [if_pos hz, upd_self]; exact hadd.1
    · rename_i e
      split
      · rw [upd_ne _ _ e]
      · rfl
  · apply PAcc.step hp h1 hi ih.accF
    intro j j1
    split
    all_goals rw [a3]
    · rename_i e; subst e
      rw [if_pos (show s.par i > 0 from j1), upd_self]
    · rename_i e
      split
      · rw [upd_ne _ _ e]
      · rfl
  · intro j j1 hij hj l hl
    by_cases e : j = i
    · subst e; rw [(gravDerBwd_cols j x hl).2, ih.J j j1 hj l hl, ih.dAq j j1 hj l hl, hFi, hmul]
    · rw [(gravDerBwd_out i x (ne j j1 hj e l hl)).2]; exact ih.Fq j j1 (by omega) hj l hl
  · intro j j1 hij hj l hl
    by_cases e : j = i
    · subst e; rw [(gravDerBwd_cols j x hl).1, ih.J j j1 hj l hl, hFi]
    · rw [(gravDerBwd_out i x (ne j j1 hj e l hl)).1]; exact ih.tau j j1 (by omega) hj l hl
  · obtain ⟨m1, m2⟩ := gravDerBwd_mat (s := s) i x
    rw [m1]
    refine RowC.step h hf hc h1 hi iG (fun r c => (x.1.dAdq c).dot ((gravDerBwd s i x).1.Ag r)) ?_ ?_
    · intro j hj ha l hl k hk
      have j1 := j1' j hj ha
      rw [colR j hj ha l hl, ih.J i h1 hi k hk]
      unfold Sys.eQ
      rw [if_pos ha, Sys.dVq_rest hp q j1 hj, M6.mulMF_zero, add_zero]
      by_cases e : i = j
      · subst e; rw [if_pos rfl, putSeg_at _ _ hl, ih.dAq i h1 hi l hl, hmul, add_zero]
      · rw [if_neg e, putSeg_out _ _ (ne j j1 hj (Ne.symm e) l hl),
          ih.Fq j j1 (by have := anc_le hp j hj ha; omega) hj l hl]
    · intro j j1 hj ha l hl k hk
      have hno : ¬ anc s.par i j := by
        intro x
        have := anc_le hp j hj x
        have := anc_le hp (s.par i) (by omega) ha
        omega
      beta_reduce
      rw [m2 k hk, ih.dAq j j1 hj l hl, ih.J i h1 hi k hk, hmul, M6.dot_symm' (Sys.oYm_symm q i)]
      unfold Sys.eQ
      rw [if_neg hno, if_pos ((anc_step h1 hpi).2 (Or.inr ha)), Sys.dVq_rest hp q j1 hj, M6.mulMF_zero, add_zero]

/-- both passes -/
theorem gravDerBwd_ok (h : s.Packed) (hf : s.Full) (hc : Compact s.par s.n) (hm : s.MassesOk) {q : ℕ → K} (hq : s.At q)
    (hb : s.RestBias q) {fext : ℕ → Force K} {d : Data K} (hd : GdF s q (s.oF (-s.grav) q 𝟎 𝟎 fext) s.n d)
    (g : ℕ → K) (G : ℕ → ℕ → K) :
    let x := bwd (gravDerBwd s) s.n (d, g, G)
    GdB s q fext 1 x.1 x.2.1 ∧ RowC s (s.eQ q 𝟎 𝟎 fext) G 1 x.2.2 := by
  have start : ∀ {M : Type u} [AddCommGroup M] (x0 x : ℕ → M), (∀ i, 1 ≤ i → i < s.n → x i = x0 i) →
      PAcc s.par s.n (fun _ x => x) x0 s.n x := by
    intro M _ x0 x hx i h1 hi
    rw [filter_eq_empty_iff.2, sum_empty, add_zero]
    · exact hx i h1 hi
    · intro c hc'; have := (mem_kids.1 hc').1.2; omega
  apply bwd_ind (P := fun k (x : Data K × (ℕ → K) × (ℕ → ℕ → K)) => GdB s q fext k x.1 x.2.1 ∧
    RowC s (s.eQ q 𝟎 𝟎 fext) G k x.2.2) h.par.1
  · refine ⟨⟨hd.J, ?_, ?_, ?_, ?_, fun i _ _ _ => by omega, fun i _ _ _ => by omega⟩, RowC.start ..⟩
    · intro i h1 hi k hk; rw [hd.dAq i h1 hi k hk, Sys.dAq_rest h.par hq hb h1 hi]
    · intro i h1 hi; rw [hd.Y i h1 hi]; exact hm i h1 hi
    · apply start
      intro i h1 hi; rw [hd.Y i h1 hi]; rfl
    · exact start _ _ hd.of
  · intro i x h1 hi ⟨b1, b2⟩
    exact gravDerBwd_step h hf hc h1 hi b1 b2

end Pin
