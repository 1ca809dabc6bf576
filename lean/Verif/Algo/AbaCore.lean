import Verif.Algo.Aba
import Verif.Algo.EnergyLemmas

/-!
# The articulated body recursion, in any frame

`AS` is the part of `Data` written by the backward pass, `AbaP` its inputs. The local and the world
convention are two instances (`Verif/Algo/AbaLemmas.lean`).
-/

namespace Pin
open Finset

section ring
variable {K : Type*} [CommRing K]

theorem M6.outer_mulMF (a b : Force K) (v : Motion K) : (M6.outer a b).mulMF v = v.dot b • a := by
  ext <;> simp [M6.outer, M3.outer, M6.mulMF, Motion.dot, V3.dot] <;> ring

theorem M6.sub_mulMF' (A B : M6 K) (v : Motion K) : (A - B).mulMF v = A.mulMF v - B.mulMF v := by
  ext <;> simp [M6.mulMF] <;> ring

theorem M6.mulMF_add' (A : M6 K) (v w : Motion K) : A.mulMF (v + w) = A.mulMF v + A.mulMF w := by
  ext <;> simp [M6.mulMF] <;> ring
theorem M6.mulMF_smul' (A : M6 K) (c : K) (v : Motion K) : A.mulMF (c • v) = c • A.mulMF v := by
  ext <;> simp [M6.mulMF] <;> ring
theorem M6.mulMF_zero' (A : M6 K) : A.mulMF 0 = 0 := by
  ext <;> simp [M6.mulMF]
theorem M6.mulMF_sum' {ι : Type*} (A : M6 K) (t : Finset ι) (g : ι → Motion K) :
    A.mulMF (∑ i ∈ t, g i) = ∑ i ∈ t, A.mulMF (g i) := by
  classical
  induction t using Finset.induction_on with
  | empty => simpa using M6.mulMF_zero' A
  | insert a t ha ih => rw [sum_insert ha, sum_insert ha, M6.mulMF_add', ih]
theorem M6.mulMF_comb (A : M6 K) (S : ℕ → Motion K) (n : ℕ) (x : ℕ → K) :
    A.mulMF (comb S n x) = ∑ k ∈ range n, x k • A.mulMF (S k) := by
  rw [comb, M6.mulMF_sum']; exact sum_congr rfl fun k _ => M6.mulMF_smul' ..

theorem M6.isSymm_iff {A : M6 K} : A.IsSymm ↔ ∀ u v : Motion K, u.dot (A.mulMF v) = v.dot (A.mulMF u) := by
  constructor
  · intro h u v; exact h.dot_comm u v
  · intro h
    apply M6.ext_mulMF
    intro v
    apply Motion.dot_ext
    intro u
    rw [h u v, M6.dot_mulMF]
    rfl
end ring

section field
variable {K : Type*} [Field K]

/-- the leading block is invertible -/
def InvOk (n : ℕ) (A : ℕ → ℕ → K) : Prop := (blockMat n A).det ≠ 0

theorem sum_range_fin {n : ℕ} (f : ℕ → K) : ∑ k ∈ range n, f k = ∑ k : Fin n, f k :=
  (Fin.sum_univ_eq_sum_range f n).symm

theorem blockMat_inv {n : ℕ} {A : ℕ → ℕ → K} :
    blockMat n (invBlock n A) = (blockMat n A).det⁻¹ • (blockMat n A).adjugate := by
  ext i j
  simp [blockMat, invBlock]

theorem mul_invBlock {n : ℕ} {A : ℕ → ℕ → K} (h : InvOk n A) {i j : ℕ} (hi : i < n) (hj : j < n) :
    ∑ k ∈ range n, A i k * invBlock n A k j = if i = j then 1 else 0 := by
  have e : blockMat n A * blockMat n (invBlock n A) = 1 := by
    rw [blockMat_inv, Matrix.mul_smul, Matrix.mul_adjugate, smul_smul, inv_mul_cancel₀ h, one_smul]
  have := congrFun (congrFun e ⟨i, hi⟩) ⟨j, hj⟩
  rw [Matrix.mul_apply, Matrix.one_apply] at this
  rw [sum_range_fin]
  simpa [blockMat, Fin.ext_iff] using this

theorem invBlock_mul {n : ℕ} {A : ℕ → ℕ → K} (h : InvOk n A) {i j : ℕ} (hi : i < n) (hj : j < n) :
    ∑ k ∈ range n, invBlock n A i k * A k j = if i = j then 1 else 0 := by
  have e : blockMat n (invBlock n A) * blockMat n A = 1 := by
    rw [blockMat_inv, Matrix.smul_mul, Matrix.adjugate_mul, smul_smul, inv_mul_cancel₀ h, one_smul]
  have := congrFun (congrFun e ⟨i, hi⟩) ⟨j, hj⟩
  rw [Matrix.mul_apply, Matrix.one_apply] at this
  rw [sum_range_fin]
  simpa [blockMat, Fin.ext_iff] using this

theorem invBlock_symm {n : ℕ} {A : ℕ → ℕ → K} (hA : ∀ i < n, ∀ j < n, A i j = A j i) {i j : ℕ} (hi : i < n)
    (hj : j < n) : invBlock n A i j = invBlock n A j i := by
  have ht : (blockMat n A).transpose = blockMat n A := by
    ext a b; exact hA b b.2 a a.2
  have : (blockMat n A).adjugate.transpose = (blockMat n A).adjugate := by
    rw [Matrix.adjugate_transpose, ht]
  unfold invBlock
  rw [dif_pos ⟨hi, hj⟩, dif_pos ⟨hj, hi⟩]
  congr 1
  have := congrFun (congrFun this ⟨j, hj⟩) ⟨i, hi⟩
  rwa [Matrix.transpose_apply] at this

/-- `StU` at a joint -/
def dMat (S : ℕ → Motion K) (arm : ℕ → K) (I : M6 K) : ℕ → ℕ → K :=
  fun r c => (S r).dot (I.mulMF (S c)) + if r = c then arm r else 0

/-- column of `UDinv` -/
def udCol (n : ℕ) (S : ℕ → Motion K) (arm : ℕ → K) (I : M6 K) (c : ℕ) : Force K :=
  ∑ k ∈ range n, invBlock n (dMat S arm I) k c • I.mulMF (S k)

/-- the articulated inertia seen by the parent -/
def artDown (n : ℕ) (S : ℕ → Motion K) (arm : ℕ → K) (I : M6 K) : M6 K :=
  I - ∑ k ∈ range n, M6.outer (udCol n S arm I k) (I.mulMF (S k))

theorem dMat_symm {S : ℕ → Motion K} {arm : ℕ → K} {I : M6 K} (hI : I.IsSymm) (r c : ℕ) :
    dMat S arm I r c = dMat S arm I c r := by
  unfold dMat
  rw [hI.dot_comm]
  by_cases h : r = c
  · subst h; rfl
  · rw [if_neg h, if_neg (Ne.symm h)]

theorem artDown_mulMF (n : ℕ) (S : ℕ → Motion K) (arm : ℕ → K) (I : M6 K) (v : Motion K) :
    (artDown n S arm I).mulMF v
      = I.mulMF v - ∑ k ∈ range n, v.dot (I.mulMF (S k)) • udCol n S arm I k := by
  unfold artDown
  rw [M6.sub_mulMF', M6.sum_mulMF]
  simp only [M6.outer_mulMF]

theorem ud_swap {n : ℕ} {S : ℕ → Motion K} {arm : ℕ → K} {I : M6 K} (hI : I.IsSymm) (v : Motion K) :
    ∑ k ∈ range n, v.dot (I.mulMF (S k)) • udCol n S arm I k
      = ∑ k ∈ range n, v.dot (udCol n S arm I k) • I.mulMF (S k) := by
  unfold udCol
  simp only [smul_sum, Motion.dot_sum, sum_smul, Motion.dot_smul, smul_smul]
  rw [sum_comm]
  apply sum_congr rfl
  intro k hk
  apply sum_congr rfl
  intro l hl
  congr 1
  rw [invBlock_symm (fun i _ j _ => dMat_symm hI i j) (mem_range.1 hk) (mem_range.1 hl)]
  ring

theorem artDown_symm {n : ℕ} {S : ℕ → Motion K} {arm : ℕ → K} {I : M6 K} (hI : I.IsSymm) :
    (artDown n S arm I).IsSymm := by
  rw [M6.isSymm_iff]
  intro u v
  rw [artDown_mulMF, artDown_mulMF, Motion.dot_sub, Motion.dot_sub, hI.dot_comm u v, ud_swap hI u]
  congr 1
  rw [Motion.dot_sum, Motion.dot_sum]
  apply sum_congr rfl
  intro k _
  rw [Motion.dot_smul, Motion.dot_smul, mul_comm]

/-- The elimination of one joint: with `a = a' + S ddq`, the joint equation holds and the force transmitted
to the parent is the articulated one. -/
theorem art_joint {n : ℕ} {S : ℕ → Motion K} {arm : ℕ → K} {I : M6 K} (hI : I.IsSymm)
    (hD : InvOk n (dMat S arm I)) (p : Force K) (t : ℕ → K) (a' : Motion K) {x : ℕ → K}
    (hx : ∀ k < n, x k = (∑ l ∈ range n, invBlock n (dMat S arm I) k l * (t l - (S l).dot p))
      - a'.dot (udCol n S arm I k)) :
    (∀ k < n, (S k).dot (I.mulMF (a' + comb S n x) + p) + arm k * x k = t k) ∧
    I.mulMF (a' + comb S n x) + p
      = (artDown n S arm I).mulMF a' + (p + ∑ k ∈ range n, (t k - (S k).dot p) • udCol n S arm I k) := by
  constructor
  · intro k hk
    have e1 : ∑ l ∈ range n, dMat S arm I k l * x l = (t k - (S k).dot p) - a'.dot (I.mulMF (S k)) := by
      rw [sum_congr rfl (g := fun l => (∑ m ∈ range n, dMat S arm I k l * invBlock n (dMat S arm I) l m
        * (t m - (S m).dot p)) - ∑ m ∈ range n, dMat S arm I k l * invBlock n (dMat S arm I) l m
        * a'.dot (I.mulMF (S m)))]
      · rw [sum_sub_distrib, sum_comm, sum_comm (f := fun l m => dMat S arm I k l * invBlock n (dMat S arm I) l m
          * a'.dot (I.mulMF (S m)))]
        simp only [← sum_mul]
        congr 1
        · rw [sum_eq_single_of_mem k (mem_range.2 hk), mul_invBlock hD hk hk, if_pos rfl, one_mul]
          intro m hm hne
          rw [mul_invBlock hD hk (mem_range.1 hm), if_neg (Ne.symm hne), zero_mul]
        · rw [sum_eq_single_of_mem k (mem_range.2 hk), mul_invBlock hD hk hk, if_pos rfl, one_mul]
          intro m hm hne
          rw [mul_invBlock hD hk (mem_range.1 hm), if_neg (Ne.symm hne), zero_mul]
      · intro l hl
        rw [hx l (mem_range.1 hl), mul_sub, mul_sum]
        congr 1
        · exact sum_congr rfl fun m _ => by ring
        · unfold udCol
          rw [Motion.dot_sum, mul_sum]
          apply sum_congr rfl
          intro m hm
          rw [Motion.dot_smul, invBlock_symm (fun i _ j _ => dMat_symm hI i j) (mem_range.1 hm) (mem_range.1 hl)]
          ring
    have e2 : ∑ l ∈ range n, dMat S arm I k l * x l
        = (S k).dot (I.mulMF (comb S n x)) + arm k * x k := by
      rw [M6.mulMF_comb, Motion.dot_sum]
      unfold dMat
      simp only [add_mul, sum_add_distrib, Motion.dot_smul, ite_mul, zero_mul]
      rw [Finset.sum_ite_eq (range n) k, if_pos (mem_range.2 hk)]
      congr 1
      exact sum_congr rfl fun l _ => mul_comm _ _
    rw [M6.mulMF_add', Motion.dot_add, Motion.dot_add]
    rw [hI.dot_comm (S k) a']
    rw [e2] at e1
    linear_combination e1
  · rw [M6.mulMF_add', M6.mulMF_comb, artDown_mulMF, ud_swap hI]
    have e : ∑ k ∈ range n, x k • I.mulMF (S k)
        = ∑ k ∈ range n, (t k - (S k).dot p) • udCol n S arm I k
          - ∑ k ∈ range n, a'.dot (udCol n S arm I k) • I.mulMF (S k) := by
      rw [sum_congr rfl (g := fun k => (∑ l ∈ range n, (invBlock n (dMat S arm I) k l * (t l - (S l).dot p))
        • I.mulMF (S k)) - a'.dot (udCol n S arm I k) • I.mulMF (S k)), sum_sub_distrib, sum_comm]
      · congr 1
        apply sum_congr rfl
        intro l _
        conv_rhs => unfold udCol
        rw [smul_sum]
        exact sum_congr rfl fun k _ => by rw [smul_smul, mul_comm]
      · intro k hk
        rw [hx k (mem_range.1 hk), sub_smul, sum_smul]
    rw [e]
    abel

/-! ## the passes -/

/-- inputs of the backward pass: columns `S`, maps between frames of joint and parent, bias -/
structure AbaP (K : Type*) where
  S : ℕ → ℕ → Motion K
  Um : ℕ → Motion K → Motion K
  Tf : ℕ → Force K → Force K
  TM : ℕ → M6 K → M6 K
  c : ℕ → Motion K

/-- what the backward pass writes -/
structure AS (K : Type*) where
  Y : ℕ → M6 K
  f : ℕ → Force K
  u : ℕ → K
  U : ℕ → ℕ → Force K
  StU : ℕ → ℕ → ℕ → K
  Dinv : ℕ → ℕ → ℕ → K
  UDinv : ℕ → ℕ → Force K

variable {s : Sys K} {P : AbaP K}

/-- one backward step -/
def absBwd (s : Sys K) (P : AbaP K) (i : ℕ) (st : AS K) : AS K :=
  let u := addSeg st.u (s.iv i) (s.jnv i) (fun k => -(StF (P.S i) (st.f i) k))
  let I := st.Y i
  let arm := seg s.arm (s.iv i)
  let Ia := artDown (s.jnv i) (P.S i) arm I
  let fi := st.f i + (Ia.mulMF (P.c i) + ∑ k ∈ range (s.jnv i), u (s.iv i + k) • udCol (s.jnv i) (P.S i) arm I k)
  { Y := if s.par i > 0 then upd (upd st.Y i Ia) (s.par i) (upd st.Y i Ia (s.par i) + P.TM i Ia) else st.Y
    f := if s.par i > 0 then upd (upd st.f i fi) (s.par i) (upd st.f i fi (s.par i) + P.Tf i fi) else st.f
    u := u
    U := upd st.U i (fun k => I.mulMF (P.S i k))
    StU := upd st.StU i (dMat (P.S i) arm I)
    Dinv := upd st.Dinv i (invBlock (s.jnv i) (dMat (P.S i) arm I))
    UDinv := upd st.UDinv i (udCol (s.jnv i) (P.S i) arm I) }

/-- what joint `c` hands over to its parent -/
def artT (s : Sys K) (P : AbaP K) (t : ℕ → K) (c : ℕ) (x : M6 K × Force K) : M6 K × Force K :=
  let arm := seg s.arm (s.iv c)
  let Ia := artDown (s.jnv c) (P.S c) arm x.1
  (P.TM c Ia, P.Tf c (x.2 + (Ia.mulMF (P.c c)
    + ∑ k ∈ range (s.jnv c), (t (s.iv c + k) - (P.S c k).dot x.2) • udCol (s.jnv c) (P.S c) arm x.1 k)))

/-- outputs of the backward pass at joint `i`, articulated inertia and bias force `x` -/
structure ArtAt (s : Sys K) (P : AbaP K) (t : ℕ → K) (i : ℕ) (x : M6 K × Force K) (st : AS K) : Prop where
  U : st.U i = fun k => x.1.mulMF (P.S i k)
  StU : st.StU i = dMat (P.S i) (seg s.arm (s.iv i)) x.1
  Dinv : st.Dinv i = invBlock (s.jnv i) (dMat (P.S i) (seg s.arm (s.iv i)) x.1)
  UDinv : st.UDinv i = udCol (s.jnv i) (P.S i) (seg s.arm (s.iv i)) x.1
  u : ∀ l < s.jnv i, st.u (s.iv i + l) = t (s.iv i + l) - (P.S i l).dot x.2

theorem absBwd_ok (h : s.Packed) {I0 : ℕ → M6 K} {p : ℕ → Force K} {t : ℕ → K} {st : AS K}
    (hY : ∀ i, 1 ≤ i → i < s.n → st.Y i = I0 i) (hf : ∀ i, 1 ≤ i → i < s.n → st.f i = p i) (hu : st.u = t) :
    ∃ G : ℕ → M6 K × Force K, IsAcc s.par s.n (artT s P t) (fun i => (I0 i, p i)) G ∧
      ∀ i, 1 ≤ i → i < s.n → ArtAt s P t i (G i) (bwd (absBwd s P) s.n st) := by
  have key := bwd_ind (step := absBwd s P) (n := s.n) (d := st)
    (P := fun k (st : AS K) => ∃ G : ℕ → M6 K × Force K,
      PAcc s.par s.n (artT s P t) (fun i => (I0 i, p i)) k G ∧
      (∀ i, 1 ≤ i → i < s.n → i < k → st.Y i = (G i).1 ∧ st.f i = (G i).2 ∧
        ∀ l < s.jnv i, st.u (s.iv i + l) = t (s.iv i + l)) ∧
      (∀ i, 1 ≤ i → i < s.n → k ≤ i → ArtAt s P t i (G i) st)) h.par.1
    ⟨fun i => (I0 i, p i), PAcc.start _ _ _ _, fun i h1 hi _ => ⟨hY i h1 hi, hf i h1 hi, fun l _ => by rw [hu]⟩,
      fun i _ _ _ => by omega⟩ ?_
  · obtain ⟨G, g1, -, g3⟩ := key
    exact ⟨G, g1.done, fun i h1 hi => g3 i h1 hi h1⟩
  · rintro i st h1 hi ⟨G, g1, g2, g3⟩
    have hpi := h.par.2 i h1 hi
    obtain ⟨y, f, u⟩ := g2 i h1 hi (by omega)
    have hui : ∀ l < s.jnv i, (absBwd s P i st).u (s.iv i + l) = t (s.iv i + l) - (P.S i l).dot (G i).2 := by
      intro l hl
      change addSeg st.u (s.iv i) (s.jnv i) (fun k => -(StF (P.S i) (st.f i) k)) (s.iv i + l) = _
      unfold addSeg
      rw [if_pos ⟨by omega, by omega⟩, u l hl, f]
      simp [StF, sub_eq_add_neg]
    have huo : ∀ j, 1 ≤ j → j < s.n → j ≠ i → ∀ l < s.jnv j,
        (absBwd s P i st).u (s.iv j + l) = st.u (s.iv j + l) := by
      intro j hj1 hj hne l hl
      change addSeg st.u (s.iv i) (s.jnv i) (fun k => -(StF (P.S i) (st.f i) k)) (s.iv j + l) = _
      unfold addSeg
      rw [if_neg]
      rintro ⟨a, b⟩
      exact hne (h.inj hj1 hj h1 hi hl (k := l) (l := s.iv j + l - s.iv i) (by omega) (by omega)).1
    set G' : ℕ → M6 K × Force K :=
      if s.par i > 0 then upd G (s.par i) (G (s.par i) + artT s P t i (G i)) else G with hG'
    have same : ∀ c, i ≤ c → G' c = G c := by
      intro c hc
      rw [hG']; split
      · rw [upd_ne _ _ (by omega)]
      · rfl
    refine ⟨G', ?_, ?_, ?_⟩
    · apply PAcc.step h.par h1 hi g1
      intro j hj
      rw [hG']
      by_cases hpos : s.par i > 0
      · simp only [hpos, if_true]
        by_cases hj' : j = s.par i
        · subst hj'; rw [upd_self]; simp
        · rw [upd_ne _ _ hj']; simp [hj']
      · have : j ≠ s.par i := by omega
        simp [hpos, this]
    · intro j hj1 hj hji
      have hne : j ≠ i := by omega
      obtain ⟨y', f', u'⟩ := g2 j hj1 hj (by omega)
      have esum : (∑ k ∈ range (s.jnv i), (absBwd s P i st).u (s.iv i + k)
            • udCol (s.jnv i) (P.S i) (seg s.arm (s.iv i)) (st.Y i) k)
          = ∑ k ∈ range (s.jnv i), (t (s.iv i + k) - (P.S i k).dot (G i).2)
            • udCol (s.jnv i) (P.S i) (seg s.arm (s.iv i)) (G i).1 k :=
        sum_congr rfl fun k hk => by rw [hui k (mem_range.1 hk), y]
      refine ⟨?_, ?_, fun l hl => by rw [huo j hj1 hj hne l hl, u' l hl]⟩
      · change (if s.par i > 0 then _ else _ : ℕ → M6 K) j = _
        rw [hG']
        by_cases hpos : s.par i > 0
        · simp only [hpos, if_true]
          by_cases hj' : j = s.par i
          · subst hj'
            rw [upd_self, upd_self, upd_ne _ _ hne, y', y]
            rfl
          · rw [upd_ne _ _ hj', upd_ne _ _ hj', upd_ne _ _ hne, y']
        · simp only [hpos, if_false]; exact y'
      · change (if s.par i > 0 then _ else _ : ℕ → Force K) j = _
        rw [hG']
        by_cases hpos : s.par i > 0
        · simp only [hpos, if_true]
          by_cases hj' : j = s.par i
          · subst hj'
            rw [upd_self, upd_self, upd_ne _ _ hne, f']
            change _ + P.Tf i (st.f i + (_ + ∑ k ∈ range (s.jnv i), (absBwd s P i st).u (s.iv i + k)
              • udCol (s.jnv i) (P.S i) (seg s.arm (s.iv i)) (st.Y i) k)) = _
            rw [esum, y, f]
            rfl
          · rw [upd_ne _ _ hj', upd_ne _ _ hj', upd_ne _ _ hne, f']
        · simp only [hpos, if_false]; exact f'
    · intro j hj1 hj hij
      rw [same j hij]
      by_cases hji : j = i
      · subst hji
        refine ⟨?_, ?_, ?_, ?_, hui⟩
        · exact (upd_self st.U j _).trans (by rw [y])
        · exact (upd_self st.StU j _).trans (by rw [y])
        · exact (upd_self st.Dinv j _).trans (by rw [y])
        · exact (upd_self st.UDinv j _).trans (by rw [y])
      · have ih := g3 j hj1 hj (by omega)
        refine ⟨?_, ?_, ?_, ?_, fun l hl => ?_⟩
        · exact (upd_ne st.U _ hji).trans ih.U
        · exact (upd_ne st.StU _ hji).trans ih.StU
        · exact (upd_ne st.Dinv _ hji).trans ih.Dinv
        · exact (upd_ne st.UDinv _ hji).trans ih.UDinv
        · rw [huo j hj1 hj hji l hl]; exact ih.u l hl

/-- one step of the last forward pass on (accelerations, ddq) -/
def absFwd (s : Sys K) (P : AbaP K) (st : AS K) (i : ℕ) (x : (ℕ → Motion K) × (ℕ → K)) :
    (ℕ → Motion K) × (ℕ → K) :=
  let a' := x.1 i + P.Um i (x.1 (s.par i))
  let ddq := putSeg x.2 (s.iv i) (s.jnv i) (fun k =>
    (∑ l ∈ range (s.jnv i), st.Dinv i k l * st.u (s.iv i + l)) - a'.dot (st.UDinv i k))
  (upd x.1 i (a' + comb (P.S i) (s.jnv i) (seg ddq (s.iv i))), ddq)

theorem putSeg_read {α : Type*} (x : ℕ → α) {i n k : ℕ} (y : ℕ → α) (hk : k < n) : putSeg x i n y (i + k) = y k := by
  unfold putSeg
  rw [if_pos ⟨by omega, by omega⟩]
  congr 1; omega

theorem absFwd_ok (h : s.Packed) (st : AS K) {c : ℕ → Motion K} {a0 : Motion K} {a : ℕ → Motion K} {q0 : ℕ → K}
    (ha0 : a 0 = a0) (ha : ∀ i, 1 ≤ i → i < s.n → a i = c i) :
    let r := fwd (absFwd s P st) s.n (a, q0)
    r.1 0 = a0 ∧ ∀ i, 1 ≤ i → i < s.n →
      r.1 i = c i + P.Um i (r.1 (s.par i)) + comb (P.S i) (s.jnv i) (s.vs r.2 i) ∧
      ∀ l < s.jnv i, r.2 (s.iv i + l) = (∑ m ∈ range (s.jnv i), st.Dinv i l m * st.u (s.iv i + m))
        - (c i + P.Um i (r.1 (s.par i))).dot (st.UDinv i l) := by
  intro r
  have key := fwd_ind (step := absFwd s P st) (n := s.n) (d := (a, q0))
    (P := fun k (x : (ℕ → Motion K) × (ℕ → K)) => x.1 0 = a0 ∧ (∀ i, k ≤ i → i < s.n → x.1 i = c i) ∧
      ∀ i, 1 ≤ i → i < k →
      x.1 i = c i + P.Um i (x.1 (s.par i)) + comb (P.S i) (s.jnv i) (s.vs x.2 i) ∧
      ∀ l < s.jnv i, x.2 (s.iv i + l) = (∑ m ∈ range (s.jnv i), st.Dinv i l m * st.u (s.iv i + m))
        - (c i + P.Um i (x.1 (s.par i))).dot (st.UDinv i l)) h.par.1
    ⟨ha0, fun i h1 hi => ha i h1 hi, fun i _ _ => by omega⟩ ?_
  · exact ⟨key.1, key.2.2⟩
  · rintro i x h1 hi ⟨x0, xc, ih⟩
    have hpi := h.par.2 i h1 hi
    have e1 : (absFwd s P st i x).1 = upd x.1 i (x.1 i + P.Um i (x.1 (s.par i))
      + comb (P.S i) (s.jnv i) (seg (absFwd s P st i x).2 (s.iv i))) := rfl
    have e2 : (absFwd s P st i x).2 = putSeg x.2 (s.iv i) (s.jnv i) (fun k =>
      (∑ l ∈ range (s.jnv i), st.Dinv i k l * st.u (s.iv i + l))
        - (x.1 i + P.Um i (x.1 (s.par i))).dot (st.UDinv i k)) := rfl
    have hci := xc i le_rfl hi
    refine ⟨?_, ?_, ?_⟩
    · rw [e1, upd_ne _ _ (by omega), x0]
    · intro j hj hjn
      rw [e1, upd_ne _ _ (by omega)]; exact xc j (by omega) hjn
    · intro j hj1 hj
      by_cases hji : j = i
      · subst hji
        constructor
        · rw [e1, upd_self, upd_ne _ _ (by omega), hci]; rfl
        · intro l hl
          rw [e2, putSeg_read _ _ hl, e1, upd_ne _ _ (by omega), hci]
      · have hpj := h.par.2 j hj1 (by omega)
        obtain ⟨i1, i2⟩ := ih j hj1 (by omega)
        have hq : ∀ l < s.jnv j, (absFwd s P st i x).2 (s.iv j + l) = x.2 (s.iv j + l) := by
          intro l hl
          rw [e2]
          unfold putSeg
          apply if_neg
          rintro ⟨a, b⟩
          exact hji (h.inj hj1 (by omega) h1 hi hl (k := l) (l := s.iv j + l - s.iv i) (by omega) (by omega)).1
        constructor
        · rw [e1, upd_ne _ _ hji, upd_ne _ _ (by omega), i1]
          congr 1
          exact comb_congr (fun _ _ => rfl) (fun k hk => (hq k hk).symm)
        · intro l hl
          rw [hq l hl, i2 l hl, e1, upd_ne _ _ (by omega)]

/-- **Articulated body recursion**: the accelerations found satisfy the Newton-Euler equations tested
against any joint velocity. -/
theorem aba_core (h : s.Packed) {I0 : ℕ → M6 K} {p : ℕ → Force K} {t : ℕ → K}
    {G : ℕ → M6 K × Force K} (hG : IsAcc s.par s.n (artT s P t) (fun i => (I0 i, p i)) G)
    (hI0 : ∀ i, 1 ≤ i → i < s.n → (I0 i).IsSymm)
    (hTs : ∀ i, ∀ A : M6 K, A.IsSymm → (P.TM i A).IsSymm)
    (hTM : ∀ i, ∀ A : M6 K, A.IsSymm → ∀ v, (P.TM i A).mulMF v = P.Tf i (A.mulMF (P.Um i v)))
    (hUT : ∀ i v f, (P.Um i v).dot f = v.dot (P.Tf i f)) (hTf : ∀ i f g, P.Tf i (f + g) = P.Tf i f + P.Tf i g)
    {st : AS K} (hst : ∀ i, 1 ≤ i → i < s.n → ArtAt s P t i (G i) st)
    (hD : ∀ i, 1 ≤ i → i < s.n → InvOk (s.jnv i) (st.StU i)) {a : ℕ → Motion K} {x : ℕ → K}
    (ha : ∀ i, 1 ≤ i → i < s.n →
      a i = P.c i + P.Um i (a (s.par i)) + comb (P.S i) (s.jnv i) (s.vs x i) ∧
      ∀ l < s.jnv i, x (s.iv i + l) = (∑ m ∈ range (s.jnv i), st.Dinv i l m * st.u (s.iv i + m))
        - (P.c i + P.Um i (a (s.par i))).dot (st.UDinv i l))
    {w : ℕ → K} {V : ℕ → Motion K} (hV0 : V 0 = 0)
    (hV : ∀ i, 1 ≤ i → i < s.n → V i = comb (P.S i) (s.jnv i) (s.vs w i) + P.Um i (V (s.par i))) :
    s.dotv w t = (∑ i ∈ Ico 1 s.n, (V i).dot ((I0 i).mulMF (a i) + p i)) + s.dotv w (fun r => s.arm r * x r) := by
  -- symmetric articulated inertias
  have hsym : ∀ i, 1 ≤ i → i < s.n → (G i).1.IsSymm := by
    have key : ∀ k i, 1 ≤ i → i < s.n → s.n - i ≤ k → (G i).1.IsSymm := by
      intro k
      induction k with
      | zero => intro i _ hi hk; omega
      | succ k ih =>
        intro i h1 hi hk
        rw [hG i h1 hi, Prod.fst_add, Prod.fst_sum]
        apply M6.isSymm_add (hI0 i h1 hi)
        apply M6.isSymm_sum
        intro c hc
        obtain ⟨⟨c1, cn⟩, cp⟩ := mem_kids.1 hc
        have := h.par.2 c c1 cn
        exact hTs _ _ (artDown_symm (ih c c1 cn (by omega)))
    intro i h1 hi
    exact key _ i h1 hi le_rfl
  -- elimination at each joint
  have hj : ∀ i, 1 ≤ i → i < s.n → _ := fun i h1 hi => by
    have hst' := hst i h1 hi
    have hD' := hD i h1 hi
    rw [hst'.StU] at hD'
    have := art_joint (hsym i h1 hi) hD' (G i).2 (seg t (s.iv i)) (P.c i + P.Um i (a (s.par i)))
      (x := s.vs x i) (fun l hl => by
        change x (s.iv i + l) = _
        rw [(ha i h1 hi).2 l hl, hst'.Dinv, hst'.UDinv]
        congr 1
        apply sum_congr rfl
        intro m hm
        rw [hst'.u m (mem_range.1 hm)]; rfl)
    rw [← (ha i h1 hi).1] at this
    exact this
  -- forces accumulate
  have hacc : IsAcc s.par s.n P.Tf (fun i => (I0 i).mulMF (a i) + p i) (fun i => (G i).1.mulMF (a i) + (G i).2) := by
    intro i h1 hi
    change (G i).1.mulMF (a i) + (G i).2 = _
    have e := hG i h1 hi
    have e1 : (G i).1 = I0 i + ∑ c ∈ kids s.par s.n i, (artT s P t c (G c)).1 := by
      rw [e, Prod.fst_add, Prod.fst_sum]
    have e2 : (G i).2 = p i + ∑ c ∈ kids s.par s.n i, (artT s P t c (G c)).2 := by
      rw [e, Prod.snd_add, Prod.snd_sum]
    have e3 : ∑ c ∈ kids s.par s.n i, P.Tf c ((G c).1.mulMF (a c) + (G c).2)
        = (∑ c ∈ kids s.par s.n i, (artT s P t c (G c)).1.mulMF (a i)) + ∑ c ∈ kids s.par s.n i, (artT s P t c (G c)).2 := by
      rw [← sum_add_distrib]
      apply sum_congr rfl
      intro c hc
      obtain ⟨⟨c1, cn⟩, cp⟩ := mem_kids.1 hc
      rw [(hj c c1 cn).2, cp]
      change _ = (P.TM c _).mulMF (a i) + P.Tf c _
      rw [hTM c _ (artDown_symm (hsym c c1 cn)), ← hTf]
      congr 1
      rw [M6.mulMF_add']
      simp only [seg]
      abel
    rw [e3, e2]
    conv_lhs => rw [e1]
    rw [M6.add_mulMF, M6.sum_mulMF]
    beta_reduce
    abel
  have hdual := tree_duality h.par dotHom P.Um P.Tf (fun i v f => by simpa using hUT i v f) hV0
    (s := fun i => comb (P.S i) (s.jnv i) (s.vs w i)) (V := V) hV hacc
  simp only [dotHom_apply] at hdual
  rw [← hdual]
  unfold Sys.dotv
  rw [← h.sum_seg, ← h.sum_seg, ← sum_add_distrib]
  apply sum_congr rfl
  intro i hi
  rw [mem_Ico] at hi
  rw [dot_comb, ← sum_add_distrib]
  apply sum_congr rfl
  intro k hk
  have := (hj i hi.1 hi.2).1 k (mem_range.1 hk)
  simp only [seg, Sys.vs] at this ⊢
  rw [← this]
  ring

end field
end Pin
