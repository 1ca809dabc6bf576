import Verif.Algo.Coriolis
import Verif.Algo.CrbaLemmas
import Verif.Algo.JacobianLemmas

/-! # What the Coriolis passes compute -/

set_option linter.unusedSectionVars false

namespace Pin
open Finset
universe u

theorem rowLoop_map {D E : Type*} {P : ℕ → ℤ} {step : ℕ → D → D} {step' : ℕ → E → E} (φ : D → E)
    (h : ∀ j d, φ (step j d) = step' j (φ d)) : ∀ f j d, φ (rowLoop P step f j d) = rowLoop P step' f j (φ d) := by
  intro f
  induction f with
  | zero => intro j d; rfl
  | succ f ih =>
    intro j d
    unfold rowLoop
    split
    · rw [ih, h]
    · rfl

variable {K : Type u} [Field K] [LinearOrder K] [IsStrictOrderedRing K] [HasEps K] {s : Sys K}

/-- `B` of body `b` as left by the forward pass -/
def Sys.cB (s : Sys K) (q v : ℕ → K) (b : ℕ) : M6 K :=
  addForceCross ((1 / 2 : K) • ((s.Y b).act (s.oM q b)).mul (s.oV q v b))
    (((s.Y b).act (s.oM q b)).variation ((1 / 2 : K) • s.oV q v b))

theorem addForceCross_mulMF (f : Force K) (m : M6 K) (x : Motion K) :
    (addForceCross f m).mulMF x = m.mulMF x + x.crossF f := by
  ext <;> simp [addForceCross, M6.mulMF, M3.skew, Motion.crossF] <;> ring

theorem cB_mulMF (q v : ℕ → K) (b : ℕ) (x : Motion K) :
    (s.cB q v b).mulMF x = (1 / 2 : K) • ((s.oV q v b).crossF ((s.oI q b).mulMF x)
      - (s.oI q b).mulMF ((s.oV q v b).cross x) + x.crossF ((s.oI q b).mulMF (s.oV q v b))) := by
  unfold Sys.cB Sys.oI
  rw [addForceCross_mulMF, Inertia.variation_mulMF, Inertia.matrix_mulMF, Inertia.matrix_mulMF,
    Inertia.matrix_mulMF]
  generalize s.oV q v b = w
  generalize (s.Y b).act (s.oM q b) = I
  ext <;> simp [Motion.crossF, Motion.cross, Inertia.mul, Sym3.mulVec] <;> ring

/-- sum of `B` on a subtree -/
noncomputable def Sys.cBm (s : Sys K) (q v : ℕ → K) (i : ℕ) : M6 K := ∑ b ∈ subtree s.par s.n i, s.cB q v b

/-- column `k` of joint `i` in `dJ` -/
def Sys.dJc (s : Sys K) (q v : ℕ → K) (i k : ℕ) : Motion K := (s.oV q v i).cross (s.Jc q i k)

/-- what the forward pass leaves, joints below `m` -/
structure CorF (s : Sys K) (q v : ℕ → K) (m : ℕ) (d : Data K) : Prop extends TvOk s q v m d where
  Y : ∀ i, 1 ≤ i → i < m → d.oYcrb i = (s.Y i).act (s.oM q i)
  oh : ∀ i, 1 ≤ i → i < m → d.oh i = (s.oI q i).mulMF (s.oV q v i)
  B : ∀ i, 1 ≤ i → i < m → d.B i = s.cB q v i

theorem coriolisFwd_eq (q v : ℕ → K) (i : ℕ) (d : Data K) :
    coriolisFwd s q v i d =
      (let d := jacobianTvStep s q v i d
       let d := { d with oYcrb := upd d.oYcrb i ((s.Y i).act (d.oMi i)) }
       let d := { d with oh := upd d.oh i ((d.oYcrb i).mul (d.ov i)) }
       { d with B := upd d.B i (addForceCross ((1 / 2 : K) • d.oh i)
          ((d.oYcrb i).variation ((1 / 2 : K) • d.ov i))) }) := by
  rw [jacobianTvStep_eq]
  unfold coriolisFwd fk1Step
  by_cases hp : s.par i > 0
  · simp only [hp, if_true, upd_self]
    congr 1
    simp
  · simp only [hp, if_false, upd_self]
    congr 1
    simp

theorem jacobianTvStep_rest (q v : ℕ → K) (i : ℕ) (d : Data K) :
    (jacobianTvStep s q v i d).oYcrb = d.oYcrb ∧ (jacobianTvStep s q v i d).oh = d.oh ∧
      (jacobianTvStep s q v i d).B = d.B ∧ (jacobianTvStep s q v i d).C = d.C := by
  rw [jacobianTvStep_eq]
  unfold fk1Step; split <;> exact ⟨rfl, rfl, rfl, rfl⟩

theorem coriolisFwd_ok (h : s.Packed) (d : Data K) {q : ℕ → K} (hq : s.At q) (v : ℕ → K) :
    CorF s q v s.n (fwd (coriolisFwd s q v) s.n d) ∧ (fwd (coriolisFwd s q v) s.n d).C = d.C := by
  apply fwd_ind (P := fun k (d' : Data K) => CorF s q v k d' ∧ d'.C = d.C) h.par.1
  · refine ⟨⟨?_, ?_, ?_, ?_⟩, rfl⟩
    · constructor <;> intro i a b <;> omega
    all_goals intro i a b; omega
  · intro i d' h1 hi ⟨ih, ihC⟩
    have ht := tv_step h hq v h1 hi ih.toTvOk
    obtain ⟨r1, r2, r3, r4⟩ := jacobianTvStep_rest (s := s) q v i d'
    have eo := (ht.pl i h1 (by omega)).2.1
    have ev := ht.ov i h1 (by omega)
    rw [coriolisFwd_eq]
    refine ⟨⟨⟨ht.pl, ht.vel, ht.J, ht.ov, ht.dJ⟩, ?_, ?_, ?_⟩, ?_⟩
    · intro j j1 hj
      by_cases e : j = i
      · subst e; simp only [upd_self, eo]
      · simp only [upd_ne _ _ e, r1]; exact ih.Y j j1 (by omega)
    · intro j j1 hj
      by_cases e : j = i
      · subst e; simp only [upd_self, eo, ev]; unfold Sys.oI; rw [Inertia.matrix_mulMF]
      · simp only [upd_ne _ _ e, r2]; exact ih.oh j j1 (by omega)
    · intro j j1 hj
      by_cases e : j = i
      · subst e; simp only [upd_self, eo, ev]; rfl
      · simp only [upd_ne _ _ e, r3]; exact ih.B j j1 (by omega)
    · exact r4.trans ihC

/-- a column written on the rows of joint `i` for each of the columns of the joints above it -/
theorem colLoop_at (h : s.Packed) (hf : s.Full) {i : ℕ} (h1 : 1 ≤ i) (hi : i < s.n) {j l : ℕ} (hj1 : 1 ≤ j)
    (hj : j < s.n) (hl : l < s.jnv j) [Decidable (anc s.par j (s.par i))]
    (g : ℕ → (ℕ → K) → ℕ → K) (C : ℕ → ℕ → K) (r : ℕ) :
    rowLoop (parentsFromRow s) (fun j (C : ℕ → ℕ → K) => putBlock C (s.iv i) j (s.jnv i) 1
      (fun r _ => g j (fun r => C r j) (s.iv i + r))) (s.nv + 1) (parentsFromRow s (s.iv i)) C r (s.iv j + l)
    = if anc s.par j (s.par i) then
        (if s.iv i ≤ r ∧ r < s.iv i + s.jnv i then g (s.iv j + l) (fun r => C r (s.iv j + l)) r
         else C r (s.iv j + l)) else C r (s.iv j + l) := by
  classical
  have hpi := h.par.2 i h1 hi
  have hstart : parentsFromRow s (s.iv i) = lastCol s (s.par i) := by
    rw [lastCol_eq, parentsFromRow_eq h hf (by have := h.le_nv h1 hi; have := hf i h1 hi; omega),
      rpar_first h hf h1 hi]
  have hm := rowLoop_map (P := parentsFromRow s) (fun (C : ℕ → ℕ → K) c r => C r c)
    (step := fun j (C : ℕ → ℕ → K) => putBlock C (s.iv i) j (s.jnv i) 1
      (fun r _ => g j (fun r => C r j) (s.iv i + r)))
    (step' := fun j (X : ℕ → ℕ → K) => upd X j (fun r =>
      if s.iv i ≤ r ∧ r < s.iv i + s.jnv i then g j (X j) r else X j r)) (by
      intro j C
      funext c r
      by_cases e : c = j
      · subst e
        rw [upd_self]
        unfold putBlock
        by_cases hr : s.iv i ≤ r ∧ r < s.iv i + s.jnv i
        · rw [if_pos hr, if_pos ⟨hr, by omega⟩]
          have er : s.iv i + (r - s.iv i) = r := by omega
          beta_reduce
          rw [er]
        · rw [if_neg hr, if_neg (fun x => hr x.1)]
      · rw [upd_ne _ _ e]
        unfold putBlock
        rw [if_neg (by omega)]) (s.nv + 1) (parentsFromRow s (s.iv i)) C
  have hm' := congrFun (congrFun hm (s.iv j + l)) r
  rw [hstart] at hm' ⊢
  refine Eq.trans hm' ?_
  rw [rowLoop_support h hf (fun j (X : ℕ → K) => fun r =>
    if s.iv i ≤ r ∧ r < s.iv i + s.jnv i then g j X r else X r) (by omega) (fun c r => C r c) hj1 hj hl]
  split <;> rfl

/-- entries of `C` after the rows of joint `i` have been written -/
theorem coriolisRows_at (h : s.Packed) (hf : s.Full) (hc : Compact s.par s.n) {i : ℕ} (h1 : 1 ≤ i) (hi : i < s.n)
    (J dJ : ℕ → Motion K) (dFdv Ag : ℕ → Force K) (B : M6 K) (C : ℕ → ℕ → K)
    {a k' j l : ℕ} (ha1 : 1 ≤ a) (ha : a < s.n) (hk : k' < s.jnv a) (hj1 : 1 ≤ j) (hj : j < s.n) (hl : l < s.jnv j)
    [Decidable (anc s.par i j)] [Decidable (anc s.par j (s.par i))] :
    coriolisRows s i J dJ dFdv Ag B C (s.iv a + k') (s.iv j + l)
      = if a = i then
          (if anc s.par i j then (J (s.iv i + k')).dot (dFdv (s.iv j + l))
           else if anc s.par j (s.par i) then
            (dJ (s.iv j + l)).dot (Ag (s.iv i + k')) + (J (s.iv i + k')).dot (B.mulMF (J (s.iv j + l)))
           else C (s.iv i + k') (s.iv j + l))
        else C (s.iv a + k') (s.iv j + l) := by
  classical
  have hpi := h.par.2 i h1 hi
  have loop := fun (g : ℕ → (ℕ → K) → ℕ → K) C r => colLoop_at h hf h1 hi hj1 hj hl g C r
  unfold coriolisRows
  rw [loop (fun j X r => X r + (J r).dot (B.mulMF (J j))), loop (fun j X r => (dJ j).dot (Ag r)),
    putBlock_row h hc _ _ h1 hi ha1 ha hk hj1 hj hl]
  have hrow : (s.iv i ≤ s.iv a + k' ∧ s.iv a + k' < s.iv i + s.jnv i) ↔ a = i := by
    constructor
    · rintro ⟨x, y⟩
      exact (h.inj ha1 ha h1 hi hk (l := s.iv a + k' - s.iv i) (by omega) (by omega)).1
    · rintro rfl; omega
  by_cases e : a = i
  · subst e
    have hr := hrow.2 rfl
    by_cases hd : anc s.par a j
    · have hno : ¬ anc s.par j (s.par a) := by
        intro hc'
        have := anc_le h.par _ (by omega) hc'
        have := anc_le h.par _ hj hd
        omega
      have hivle : s.iv a ≤ s.iv j + l := ((h.nvSub_iff hc ha1 ha hj1 hj hl).2 hd).1
      simp only [if_neg hno, if_pos hd, if_true, true_and]
      rw [show s.iv a + (s.iv j + l - s.iv a) = s.iv j + l by omega]
    · have l2 := loop (fun j X r => (dJ j).dot (Ag r)) (putBlock C (s.iv a) (s.iv a) (s.jnv a) (s.nvSub a)
        fun r c => (J (s.iv a + r)).dot (dFdv (s.iv a + c))) (s.iv a + k')
      by_cases hu : anc s.par j (s.par a)
      · rw [if_pos hu, if_pos hr] at l2
        simp [hu, hd, hk, l2]
      · simp [hu, hd]
  · simp only [e, if_false, hrow, false_and]
    split <;> rfl

/-! ## backward pass -/

theorem M6.dot_symm' {m : M6 K} (h : m.IsSymm) (a b : Motion K) : a.dot (m.mulMF b) = b.dot (m.mulMF a) :=
  h.dot_comm a b

/-- value of the entry of `C` on row `k` of joint `i` and column `l` of joint `j`, when `m` is the deeper one -/
noncomputable def Sys.cEnt (s : Sys K) (q v : ℕ → K) (m i k j l : ℕ) : K :=
  (s.Jc q i k).dot ((s.oYm q m).mulMF (s.dJc q v j l) + (s.cBm q v m).mulMF (s.Jc q j l))

/-- entries written for joints from `k` on -/
structure CorC (s : Sys K) (q v : ℕ → K) (C0 : ℕ → ℕ → K) (k : ℕ) (C : ℕ → ℕ → K) : Prop where
  down : ∀ i, 1 ≤ i → k ≤ i → i < s.n → ∀ k', k' < s.jnv i → ∀ j, j < s.n → anc s.par i j →
    ∀ l, l < s.jnv j → C (s.iv i + k') (s.iv j + l) = s.cEnt q v j i k' j l
  up : ∀ i, 1 ≤ i → k ≤ i → i < s.n → ∀ k', k' < s.jnv i → ∀ j, 1 ≤ j → anc s.par j (s.par i) →
    ∀ l, l < s.jnv j → C (s.iv i + k') (s.iv j + l) = s.cEnt q v i i k' j l
  other : ∀ i, 1 ≤ i → i < s.n → ∀ k', k' < s.jnv i → ∀ j, 1 ≤ j → j < s.n → ¬ anc s.par i j →
    ¬ anc s.par j i → ∀ l, l < s.jnv j → C (s.iv i + k') (s.iv j + l) = C0 (s.iv i + k') (s.iv j + l)

theorem CorC.step (h : s.Packed) (hf : s.Full) (hc : Compact s.par s.n) {q v : ℕ → K} {C0 C : ℕ → ℕ → K} {i : ℕ}
    (h1 : 1 ≤ i) (hi : i < s.n) (ih : CorC s q v C0 (i + 1) C) {J dJ : ℕ → Motion K} {dFdv Ag : ℕ → Force K} {B : M6 K}
    (hJ : JOk s q s.n J)
    (hdJ : ∀ i, 1 ≤ i → i < s.n → ∀ k, k < s.jnv i → dJ (s.iv i + k) = s.dJc q v i k)
    (hF : ∀ j, 1 ≤ j → i ≤ j → j < s.n → ∀ l, l < s.jnv j →
      dFdv (s.iv j + l) = (s.oYm q j).mulMF (s.dJc q v j l) + (s.cBm q v j).mulMF (s.Jc q j l))
    (hA : ∀ l, l < s.jnv i → Ag (s.iv i + l) = (s.oYm q i).mulMF (s.Jc q i l))
    (hB : B = s.cBm q v i) : CorC s q v C0 i (coriolisRows s i J dJ dFdv Ag B C) := by
  classical
  have hpi := h.par.2 i h1 hi
  constructor
  · intro a ha1 hia ha k' hk' j hj hanc l hl
    have hj1 : 1 ≤ j := le_trans ha1 (anc_le h.par j hj hanc)
    rw [coriolisRows_at h hf hc h1 hi _ _ _ _ _ _ ha1 ha hk' hj1 hj hl]
    by_cases e : a = i
    · subst e
      rw [if_pos rfl, if_pos hanc, hJ a ha1 ha k' hk', hF j hj1 (anc_le h.par j hj hanc) hj l hl]
      rfl
    · rw [if_neg e]; exact ih.down a ha1 (by omega) ha k' hk' j hj hanc l hl
  · intro a ha1 hia ha k' hk' j hj1 hanc l hl
    have hpa := h.par.2 a ha1 ha
    have hja := anc_le h.par _ (show s.par a < s.n by omega) hanc
    have hj : j < s.n := by omega
    rw [coriolisRows_at h hf hc h1 hi _ _ _ _ _ _ ha1 ha hk' hj1 hj hl]
    by_cases e : a = i
    · subst e
      have hno : ¬ anc s.par a j := by
        intro hc'; have := anc_le h.par _ hj hc'; omega
      rw [if_pos rfl, if_neg hno, if_pos hanc, hJ a ha1 ha k' hk', hA k' hk', hdJ j hj1 hj l hl, hB, hJ j hj1 hj l hl,
        M6.dot_symm' (Sys.oYm_symm q a)]
      unfold Sys.cEnt
      rw [Motion.dot_add]
    · rw [if_neg e]; exact ih.up a ha1 (by omega) ha k' hk' j hj1 hanc l hl
  · intro a ha1 ha k' hk' j hj1 hj hn1 hn2 l hl
    rw [coriolisRows_at h hf hc h1 hi _ _ _ _ _ _ ha1 ha hk' hj1 hj hl]
    by_cases e : a = i
    · subst e
      have hn3 : ¬ anc s.par j (s.par a) := fun x => hn2 ((anc_step ha1 hpi).2 (Or.inr x))
      rw [if_pos rfl, if_neg hn1, if_neg hn3]
      exact ih.other a ha1 ha k' hk' j hj1 hj hn1 hn2 l hl
    · rw [if_neg e]
      exact ih.other a ha1 ha k' hk' j hj1 hj hn1 hn2 l hl

/-- state of the backward pass -/
structure CorB (s : Sys K) (q v : ℕ → K) (C0 : ℕ → ℕ → K) (k : ℕ) (d : Data K) : Prop where
  J : JOk s q s.n d.J
  dJ : ∀ i, 1 ≤ i → i < s.n → ∀ k, k < s.jnv i → d.dJ (s.iv i + k) = s.dJc q v i k
  mass : ∀ i, 1 ≤ i → i < s.n → Inertia.MassOk (d.oYcrb i).mass
  acc : PAcc s.par s.n (fun _ x => x) (s.oI q) k (fun i => (d.oYcrb i).matrix)
  accB : PAcc s.par s.n (fun _ x => x) (s.cB q v) k d.B
  F : ∀ j, 1 ≤ j → k ≤ j → j < s.n → ∀ l, l < s.jnv j →
      d.dFdv (s.iv j + l) = (s.oYm q j).mulMF (s.dJc q v j l) + (s.cBm q v j).mulMF (s.Jc q j l)
  C : CorC s q v C0 k d.C
  oMi : ∀ i, 1 ≤ i → i < s.n → d.oMi i = s.oM q i
  ov : ∀ i, 1 ≤ i → i < s.n → d.ov i = s.oV q v i
  oh : ∀ i, 1 ≤ i → i < s.n → d.oh i = (s.oI q i).mulMF (s.oV q v i)

theorem Sys.cBm_acc (hp : ParOk s.par s.n) (q v : ℕ → K) :
    IsAcc s.par s.n (fun _ x => x) (s.cB q v) (s.cBm q v) := fun _ h1 hi => sum_subtree hp _ h1 hi

theorem coriolisBwd_step (h : s.Packed) (hf : s.Full) (hc : Compact s.par s.n) {q v : ℕ → K} {C0 : ℕ → ℕ → K} {i : ℕ}
    (h1 : 1 ≤ i) (hi : i < s.n) {d : Data K} (ih : CorB s q v C0 (i + 1) d) :
    CorB s q v C0 i (coriolisBwd s i d) := by
  have hpi := h.par.2 i h1 hi
  have hYi : (d.oYcrb i).matrix = s.oYm q i := ih.acc.eq_acc h.par (Sys.oYm_acc h.par q) i h1 hi le_rfl
  have hBi : d.B i = s.cBm q v i := ih.accB.eq_acc h.par (Sys.cBm_acc h.par q v) i h1 hi le_rfl
  set dF := putSeg (putSeg d.dFdv (s.iv i) (s.jnv i) (fun k => (d.oYcrb i).mul (d.dJ (s.iv i + k)))) (s.iv i) (s.jnv i)
      (fun k => putSeg d.dFdv (s.iv i) (s.jnv i) (fun k => (d.oYcrb i).mul (d.dJ (s.iv i + k))) (s.iv i + k)
        + (d.B i).mulMF (d.J (s.iv i + k))) with edF
  set Ag := putSeg d.Ag (s.iv i) (s.jnv i) (fun k => (d.oYcrb i).mul (d.J (s.iv i + k))) with eAg
  have hF : ∀ j, 1 ≤ j → i ≤ j → j < s.n → ∀ l, l < s.jnv j →
      dF (s.iv j + l) = (s.oYm q j).mulMF (s.dJc q v j l) + (s.cBm q v j).mulMF (s.Jc q j l) := by
    intro j hj1 hij hj l hl
    rw [edF]
    by_cases e : j = i
    · subst e
      rw [putSeg_at _ _ hl, putSeg_at _ _ hl, ih.dJ j h1 hi l hl, ih.J j h1 hi l hl, ← Inertia.matrix_mulMF, hYi, hBi]
    · rw [h.putSeg_ne _ _ h1 hi hj1 hj hl e, h.putSeg_ne _ _ h1 hi hj1 hj hl e]
      exact ih.F j hj1 (by omega) hj l hl
  have hA : ∀ l, l < s.jnv i → Ag (s.iv i + l) = (s.oYm q i).mulMF (s.Jc q i l) := by
    intro l hl
    rw [eAg, putSeg_at _ _ hl, ih.J i h1 hi l hl, ← Inertia.matrix_mulMF, hYi]
  have hC := ih.C.step h hf hc h1 hi ih.J ih.dJ hF hA hBi
  by_cases hz : s.par i > 0
  · have ed : coriolisBwd s i d = { d with
        dFdv := dF, Ag := Ag, C := coriolisRows s i d.J d.dJ dF Ag (d.B i) d.C
        oYcrb := upd d.oYcrb (s.par i) (Inertia.addAssign (d.oYcrb (s.par i)) (d.oYcrb i))
        B := upd d.B (s.par i) (d.B (s.par i) + d.B i) } := by
      unfold coriolisBwd; simp only [hz, if_true]; rfl
    have hadd := Inertia.addAssign_matrix (ih.mass (s.par i) hz (by omega)) (ih.mass i h1 hi)
    rw [ed]
    refine ⟨ih.J, ih.dJ, ?_, ?_, ?_, hF, hC, ih.oMi, ih.ov, ih.oh⟩
    · intro j hj1 hj
      by_cases hjp : j = s.par i
      · subst hjp; simp only [upd_self]; exact hadd.2
      · simp only [upd_ne _ _ hjp]; exact ih.mass j hj1 hj
    · apply PAcc.step h.par h1 hi ih.acc
      intro j hj1
      split
      · rename_i e; subst e; simp only [upd_self]; exact hadd.1
      · rename_i e; simp only [upd_ne _ _ e]
    · apply PAcc.step h.par h1 hi ih.accB
      intro j hj1
      split
      · rename_i e; subst e; simp only [upd_self]
      · rename_i e; simp only [upd_ne _ _ e]
  · have ed : coriolisBwd s i d = { d with
        dFdv := dF, Ag := Ag, C := coriolisRows s i d.J d.dJ dF Ag (d.B i) d.C } := by
      unfold coriolisBwd; simp only [hz, if_false]; rfl
    rw [ed]
    refine ⟨ih.J, ih.dJ, ih.mass, ?_, ?_, hF, hC, ih.oMi, ih.ov, ih.oh⟩
    · apply PAcc.step h.par h1 hi ih.acc
      intro j hj1
      rw [if_neg (by omega)]
    · apply PAcc.step h.par h1 hi ih.accB
      intro j hj1
      rw [if_neg (by omega)]

theorem coriolis_corB (h : s.Packed) (hf : s.Full) (hc : Compact s.par s.n) (hm : s.MassesOk) (d : Data K) {q : ℕ → K}
    (hq : s.At q) (v : ℕ → K) : CorB s q v d.C 1 (computeCoriolisMatrix s d q v) := by
  obtain ⟨hF, hC⟩ := coriolisFwd_ok h d hq v
  unfold computeCoriolisMatrix
  apply bwd_ind (P := fun k (d' : Data K) => CorB s q v d.C k d') h.par.1
  · refine ⟨hF.J, hF.dJ, ?_, ?_, ?_, fun i _ _ _ => by omega, ⟨fun i _ _ _ => by omega, fun i _ _ _ => by omega, ?_⟩,
      fun i a b => (hF.pl i a b).2.1, hF.ov, hF.oh⟩
    · intro i a b; rw [hF.Y i a b]; exact hm i a b
    · intro i a b
      rw [filter_eq_empty_iff.2, sum_empty, add_zero]
      · show (Data.oYcrb _ i).matrix = _
        rw [hF.Y i a b]; rfl
      · intro c hc'; have := (mem_kids.1 hc').1.2; omega
    · intro i a b
      rw [filter_eq_empty_iff.2, sum_empty, add_zero]
      · exact hF.B i a b
      · intro c hc'; have := (mem_kids.1 hc').1.2; omega
    · intro i _ _ k' _ j _ _ _ _ l _; rw [hC]
  · intro i d' h1 hi ih
    exact coriolisBwd_step h hf hc h1 hi ih

/-! ## `getCoriolisMatrix` -/

/-- what `getCoriolisMatrix` expects to find: placements, velocities, momenta and columns in the world frame, and
the inertias of the subtrees -/
structure CorPre (s : Sys K) (q v : ℕ → K) (d : Data K) : Prop where
  oMi : ∀ i, 1 ≤ i → i < s.n → d.oMi i = s.oM q i
  ov : ∀ i, 1 ≤ i → i < s.n → d.ov i = s.oV q v i
  oh : ∀ i, 1 ≤ i → i < s.n → d.oh i = (s.oI q i).mulMF (s.oV q v i)
  Y : ∀ i, 1 ≤ i → i < s.n → (d.oYcrb i).matrix = s.oYm q i
  J : JOk s q s.n d.J
  dJ : ∀ i, 1 ≤ i → i < s.n → ∀ k, k < s.jnv i → d.dJ (s.iv i + k) = s.dJc q v i k

theorem CorB.pre (h : s.Packed) {q v : ℕ → K} {C0 : ℕ → ℕ → K} {d : Data K} (hd : CorB s q v C0 1 d) :
    CorPre s q v d :=
  ⟨hd.oMi, hd.ov, hd.oh, fun i h1 hi => hd.acc.eq_acc h.par (Sys.oYm_acc h.par q) i h1 hi (by omega), hd.J, hd.dJ⟩

theorem getCoriolis_corC (h : s.Packed) (hf : s.Full) (hc : Compact s.par s.n) {d : Data K} {q v : ℕ → K}
    (hd : CorPre s q v d) : CorC s q v d.C 1 (getCoriolisMatrix s d).C := by
  have h1 : ∀ d' : Data K, d' = fwd (getCoriolisFwd s) s.n d →
      CorPre s q v d' ∧ d'.C = d.C ∧ ∀ i, 1 ≤ i → i < s.n → d'.B i = s.cB q v i := by
    rintro d' rfl
    apply fwd_ind (P := fun k (d' : Data K) => CorPre s q v d' ∧ d'.C = d.C ∧ ∀ i, 1 ≤ i → i < k → d'.B i = s.cB q v i)
      h.par.1
    · exact ⟨hd, rfl, fun i a b => by omega⟩
    · intro i d' h1 hi ⟨ih, ihC, ihB⟩
      refine ⟨⟨ih.oMi, ih.ov, ih.oh, ih.Y, ih.J, ih.dJ⟩, ihC, ?_⟩
      intro j j1 hj
      have e : (getCoriolisFwd s i d').B = upd (upd d'.B i (((s.Y i).act (d'.oMi i)).variation ((1 / 2 : K) • d'.ov i))) i
        (addForceCross ((1 / 2 : K) • d'.oh i) (((s.Y i).act (d'.oMi i)).variation ((1 / 2 : K) • d'.ov i))) := by
        unfold getCoriolisFwd
        simp only [upd_self]
      rw [e]
      by_cases e' : j = i
      · subst e'
        rw [upd_self, ih.oMi j h1 hi, ih.ov j h1 hi, ih.oh j h1 hi]
        unfold Sys.cB Sys.oI
        rw [Inertia.matrix_mulMF]
      · rw [upd_ne _ _ e', upd_ne _ _ e']; exact ihB j j1 (by omega)
  obtain ⟨hp, hC, hB⟩ := h1 _ rfl
  unfold getCoriolisMatrix
  have := bwd_ind (n := s.n) (step := getCoriolisBwd s) (d := fwd (getCoriolisFwd s) s.n d)
    (P := fun k (d' : Data K) => CorPre s q v d' ∧ PAcc s.par s.n (fun _ x => x) (s.cB q v) k d'.B ∧
      (∀ j, 1 ≤ j → k ≤ j → j < s.n → ∀ l, l < s.jnv j →
        d'.Fcrb 0 (s.iv j + l) = (s.oYm q j).mulMF (s.dJc q v j l) + (s.cBm q v j).mulMF (s.Jc q j l)) ∧
      CorC s q v d.C k d'.C) h.par.1 ?_ ?_
  · exact this.2.2.2
  · refine ⟨hp, ?_, fun i _ _ _ => by omega, fun i _ _ _ => by omega, fun i _ _ _ => by omega, ?_⟩
    · intro i a b
      rw [filter_eq_empty_iff.2, sum_empty, add_zero]
      · exact hB i a b
      · intro c hc'; have := (mem_kids.1 hc').1.2; omega
    · intro i _ _ k' _ j _ _ _ _ l _; rw [hC]
  · rintro i d' h1 hi ⟨ih, ihB, ihF, ihC⟩
    have hpi := h.par.2 i h1 hi
    have hYi := ih.Y i h1 hi
    have hBi : d'.B i = s.cBm q v i := ihB.eq_acc h.par (Sys.cBm_acc h.par q v) i h1 hi le_rfl
    set dF := putSeg (putSeg (d'.Fcrb 0) (s.iv i) (s.jnv i) (fun k => (d'.oYcrb i).mul (d'.dJ (s.iv i + k)))) (s.iv i)
        (s.jnv i) (fun k => putSeg (d'.Fcrb 0) (s.iv i) (s.jnv i) (fun k => (d'.oYcrb i).mul (d'.dJ (s.iv i + k)))
          (s.iv i + k) + (d'.B i).mulMF (d'.J (s.iv i + k))) with edF
    set Ag := putSeg d'.Ag (s.iv i) (s.jnv i) (fun k => (d'.oYcrb i).mul (d'.J (s.iv i + k))) with eAg
    have hF : ∀ j, 1 ≤ j → i ≤ j → j < s.n → ∀ l, l < s.jnv j →
        dF (s.iv j + l) = (s.oYm q j).mulMF (s.dJc q v j l) + (s.cBm q v j).mulMF (s.Jc q j l) := by
      intro j hj1 hij hj l hl
      rw [edF]
      by_cases e : j = i
      · subst e
        rw [putSeg_at _ _ hl, putSeg_at _ _ hl, ih.dJ j h1 hi l hl, ih.J j h1 hi l hl, ← Inertia.matrix_mulMF, hYi, hBi]
      · rw [h.putSeg_ne _ _ h1 hi hj1 hj hl e, h.putSeg_ne _ _ h1 hi hj1 hj hl e]
        exact ihF j hj1 (by omega) hj l hl
    have hA : ∀ l, l < s.jnv i → Ag (s.iv i + l) = (s.oYm q i).mulMF (s.Jc q i l) := by
      intro l hl
      rw [eAg, putSeg_at _ _ hl, ih.J i h1 hi l hl, ← Inertia.matrix_mulMF, hYi]
    have hC := ihC.step h hf hc h1 hi ih.J ih.dJ hF hA hBi
    have eF : upd (upd d'.Fcrb 0 (putSeg (d'.Fcrb 0) (s.iv i) (s.jnv i)
        (fun k => (d'.oYcrb i).mul (d'.dJ (s.iv i + k))))) 0 dF 0 = dF := upd_self _ _ _
    by_cases hz : s.par i > 0
    · have ed : getCoriolisBwd s i d' = { d' with
          Fcrb := upd (upd d'.Fcrb 0 (putSeg (d'.Fcrb 0) (s.iv i) (s.jnv i)
            (fun k => (d'.oYcrb i).mul (d'.dJ (s.iv i + k))))) 0 dF, Ag := Ag
          C := coriolisRows s i d'.J d'.dJ dF Ag (d'.B i) d'.C
          B := upd d'.B (s.par i) (d'.B (s.par i) + d'.B i) } := by
        unfold getCoriolisBwd; simp only [hz, if_true, upd_self]; rfl
      rw [ed]
      refine ⟨⟨ih.oMi, ih.ov, ih.oh, ih.Y, ih.J, ih.dJ⟩, ?_, ?_, hC⟩
      · apply PAcc.step h.par h1 hi ihB
        intro j hj1
        split
        · rename_i e; subst e; simp only [upd_self]
        · rename_i e; simp only [upd_ne _ _ e]
      · dsimp only; rw [eF]; exact hF
    · have ed : getCoriolisBwd s i d' = { d' with
          Fcrb := upd (upd d'.Fcrb 0 (putSeg (d'.Fcrb 0) (s.iv i) (s.jnv i)
            (fun k => (d'.oYcrb i).mul (d'.dJ (s.iv i + k))))) 0 dF, Ag := Ag
          C := coriolisRows s i d'.J d'.dJ dF Ag (d'.B i) d'.C } := by
        unfold getCoriolisBwd; simp only [hz, if_false, upd_self]; rfl
      rw [ed]
      refine ⟨⟨ih.oMi, ih.ov, ih.oh, ih.Y, ih.J, ih.dJ⟩, ?_, ?_, hC⟩
      · apply PAcc.step h.par h1 hi ihB
        intro j hj1
        rw [if_neg (by omega)]
      · dsimp only; rw [eF]; exact hF

end Pin
