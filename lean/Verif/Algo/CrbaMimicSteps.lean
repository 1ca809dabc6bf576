import Verif.Algo.CrbaMimicLemmas
import Verif.Algo.CentroidalLemmas

/-! # `crba` with mimic joints: the steps of the mimic joints -/

set_option linter.unusedSectionVars false

namespace Pin
open Finset

/-! ## lists -/

theorem sum_map_single {α : Type*} [AddCommMonoid α] {g : ℕ → α} {a : ℕ} : ∀ {L : List ℕ}, L.Nodup →
    (∀ p ∈ L, p ≠ a → g p = 0) → (L.map g).sum = if a ∈ L then g a else 0 := by
  intro L
  induction L with
  | nil => intro _ _; simp
  | cons b L ih =>
    intro hn hg
    rw [List.nodup_cons] at hn
    rw [List.map_cons, List.sum_cons, ih hn.2 (fun p hp => hg p (by simp [hp]))]
    by_cases hb : b = a
    · subst hb
      rw [if_neg hn.1, if_pos (by simp), add_zero]
    · rw [hg b (by simp) hb, zero_add]
      have : a ∈ b :: L ↔ a ∈ L := by simp [Ne.symm hb]
      simp only [this]

theorem takeWhile_sorted {P : ℕ → Bool} {z : ℕ} (hz : P z = false) : ∀ {R : List ℕ},
    R.Pairwise (fun a b => P b = true → P a = true) →
    (R ++ [z]).takeWhile P = R.filter P ∧ (R ++ [z]).dropWhile P = R.filter (fun a => !P a) ++ [z] := by
  intro R
  induction R with
  | nil => intro _; simp [hz]
  | cons a R ih =>
    intro h
    rw [List.pairwise_cons] at h
    obtain ⟨i1, i2⟩ := ih h.2
    by_cases ha : P a = true
    · simp [ha, i1, i2]
    · have hall : ∀ b ∈ R, P b = false := fun b hb => by
        by_contra hc
        exact ha (h.1 b hb (by simpa using hc))
      have ha' : P a = false := by simpa using ha
      have e1 : R.filter P = [] := List.filter_eq_nil_iff.2 fun b hb => by simp [hall b hb]
      have e2 : R.filter (fun a => !P a) = R := List.filter_eq_self.2 fun b hb => by simp [hall b hb]
      simp [ha', e1, e2]

theorem foldl_add {K ι : Type*} [AddCommMonoid K] {f : (ℕ → ℕ → K) → ι → ℕ → ℕ → K} {g : ι → K} {r c : ℕ} :
    ∀ {L : List ι}, (∀ M, ∀ p ∈ L, f M p r c = M r c + g p) → ∀ M, L.foldl f M r c = M r c + (L.map g).sum := by
  intro L
  induction L with
  | nil => intro _ M; simp
  | cons p L ih =>
    intro h M
    rw [List.foldl_cons, ih (fun M p hp => h M p (by simp [hp])), h M p (by simp), List.map_cons, List.sum_cons, add_assoc]

universe u
variable {K : Type u} [Field K] [LinearOrder K] [IsStrictOrderedRing K] [HasEps K] {s : Sys K} {t : MimTab}

theorem addBlock_apply (A : ℕ → ℕ → K) (i j m n : ℕ) (B : ℕ → ℕ → K) (r c : ℕ) :
    addBlock A i j m n B r c = A r c + if (i ≤ r ∧ r < i + m) ∧ (j ≤ c ∧ c < j + n) then B (r - i) (c - j) else 0 := by
  unfold addBlock
  split <;> simp

/-! ## the supports of a mimic joint -/

section
variable (ht : t.Ok s) (hs : t.Simple s) {m p0 : ℕ} (m1 : 1 ≤ m) (mn : m < s.n) (hm : t.mim m = some p0)
include ht hs m1 mn hm

/-- a strict ancestor of a mimic joint is not a mimic joint -/
theorem anc_plain {p : ℕ} (p1 : 1 ≤ p) (ha : anc s.par p m) (hne : p ≠ m) : t.mim p = none := by
  by_contra hc
  have := anc_le ht.ext.par m mn ha
  exact hne (hs.alone p m p1 (by omega) mn (by simpa [Option.isSome_iff_ne_none] using hc) (by simp [hm]) ha)

/-- a strict descendant of a mimic joint is not a mimic joint -/
theorem desc_plain {j : ℕ} (hj : j < s.n) (ha : anc s.par m j) (hne : j ≠ m) : t.mim j = none := by
  by_contra hc
  exact hne (hs.alone m j m1 mn hj (by simp [hm]) (by simpa [Option.isSome_iff_ne_none] using hc) ha).symm

theorem up_lists :
    ∃ R : List ℕ, R.Nodup ∧ (∀ p, p ∈ R ↔ 1 ≤ p ∧ p ≠ m ∧ anc s.par p m) ∧ t.up m = R ++ [0] ∧
      t.up1 s m = R.filter (fun p => decide (s.iv m ≤ s.iv p)) ∧
      t.up2 s m = R.filter (fun p => !decide (s.iv m ≤ s.iv p)) := by
  have hp : ParOk s.par s.n := ht.ext.par
  have hpm := hp.2 m m1 mn
  change s.par m < m at hpm
  have hso := sup_ok (s := s) hp (s.par m) (by omega)
  have hup : t.up m = (path s.par (s.par m)).reverse ++ [0] := by
    unfold MimTab.up
    rw [ht.sup m mn, sup_step hp m1 mn, List.dropLast_concat]
    unfold Sys.sup
    rw [List.reverse_cons]
  have hlt : (path s.par (s.par m)).Pairwise (· < ·) := by
    have := hso.lt
    unfold Sys.sup at this
    exact (List.pairwise_cons.1 this).2
  have hmem : ∀ p, p ∈ path s.par (s.par m) ↔ 1 ≤ p ∧ p ≠ m ∧ anc s.par p m := by
    intro p
    rw [mem_path hp _ (show s.par m < s.n by omega)]
    constructor
    · rintro ⟨a, b⟩
      have := anc_le hp _ (show s.par m < s.n by omega) b
      exact ⟨a, by omega, (anc_step m1 hpm).2 (Or.inr b)⟩
    · rintro ⟨a, b, c⟩
      rcases (anc_step m1 hpm).1 c with e | c
      · exact absurd e b
      · exact ⟨a, c⟩
  have hz : decide (s.iv m ≤ s.iv 0) = false := by
    have h0 := hs.first m p0 m1 mn hm
    rw [← (ht.mim m p0 m1 mn hm).2.2.1] at h0
    rw [ht.iv0]
    simp only [decide_eq_false_iff_not]
    omega
  have hpw : (path s.par (s.par m)).reverse.Pairwise
      (fun a b => decide (s.iv m ≤ s.iv b) = true → decide (s.iv m ≤ s.iv a) = true) := by
    rw [List.pairwise_reverse]
    refine hlt.imp_of_mem ?_
    intro a b ha hb hab h
    obtain ⟨a1, am, aa⟩ := (hmem a).1 ha
    obtain ⟨b1, bm, ba⟩ := (hmem b).1 hb
    have hbn := anc_le hp m mn ba
    have := (own_packed ht).mono a1 hab (show b < s.n by omega)
    rw [own_iv ht a1 (by omega) (anc_plain ht hs m1 mn hm a1 aa am),
      own_iv ht b1 (by omega) (anc_plain ht hs m1 mn hm b1 ba bm)] at this
    simp only [decide_eq_true_eq] at h ⊢
    omega
  obtain ⟨e1, e2⟩ := takeWhile_sorted (P := fun p => decide (s.iv m ≤ s.iv p)) (z := 0) hz hpw
  refine ⟨(path s.par (s.par m)).reverse, ?_, ?_, hup, ?_, ?_⟩
  · rw [List.nodup_reverse]
    exact hlt.imp (fun h => by omega)
  · intro p; rw [List.mem_reverse]; exact hmem p
  · unfold MimTab.up1; rw [hup]; exact e1
  · unfold MimTab.up2; rw [hup, e2, List.dropLast_concat]
end

/-! ## entries of the extended mass matrix -/

/-- entry of the mass matrix of the system with a coordinate for every joint -/
def Mx (s : Sys K) (t : MimTab) (q : ℕ → K) (i k j l : ℕ) : K :=
  (s.ext t).massForm q (Sys.unit (t.ivx i + k)) (Sys.unit (t.ivx j + l))

theorem Mx_symm (q : ℕ → K) (i k j l : ℕ) : Mx s t q i k j l = Mx s t q j l i k := Sys.massForm_symm ..

theorem Mx_anc (ht : t.Ok s) {q : ℕ → K} (hq : s.At q) {i k j l : ℕ} (i1 : 1 ≤ i) (hi : i < s.n) (hk : k < s.jnv i)
    (hj : j < s.n) (hl : l < s.jnv j) (ha : anc s.par i j) :
    Mx s t q i k j l = (s.Jc q i k).dot ((s.oYm q j).mulMF (s.Jc q j l)) := by
  have j1 : 1 ≤ j := le_trans i1 (anc_le ht.ext.par j hj ha)
  have := Sys.massForm_entry ht.ext (q := q) ⟨hq.pl, hq.jt⟩ i1 hi hk j1 hj hl ha
  refine this.trans ?_
  change _ + (if _ then (0 : K) else 0) = _
  rw [ite_self, add_zero]
  rfl

theorem Mx_un (ht : t.Ok s) {q : ℕ → K} (hq : s.At q) {i k j l : ℕ} (i1 : 1 ≤ i) (hi : i < s.n) (hk : k < s.jnv i)
    (j1 : 1 ≤ j) (hj : j < s.n) (hl : l < s.jnv j) (ha : ¬ anc s.par i j) (hb : ¬ anc s.par j i) :
    Mx s t q i k j l = 0 :=
  Sys.massForm_unrelated ht.ext (q := q) ⟨hq.pl, hq.jt⟩ i1 hi hk j1 hj hl ha hb

/-- what the mimic joint `m` adds to the entry of two coordinates -/
def mimTerm (s : Sys K) (t : MimTab) (q : ℕ → K) (i k j l m : ℕ) : K :=
  (if s.iv i + k = s.iv m ∧ s.iv j + l = s.iv m then Mx s t q m 0 m 0 else 0) +
  (if s.iv j + l = s.iv m then Mx s t q i k m 0 else 0) + (if s.iv i + k = s.iv m then Mx s t q m 0 j l else 0)

/-- what a mimic step reads -/
structure MRead (s : Sys K) (t : MimTab) (q : ℕ → K) (m : ℕ) (d : Data K) : Prop where
  J : ∀ i, 1 ≤ i → i < s.n → ∀ l, l < s.jnv i → d.J (t.ivx i + l) = s.Jc q i l
  Y : ∀ i, i < s.n → (d.oYcrb i).matrix = s.oYm q i
  Ag : ∀ i, m ≤ i → i < s.n → t.mim i = none → ∀ l, l < s.jnv i →
    d.Ag (s.iv i + l) = (s.oYm q i).mulMF (s.Jc q i l)

theorem mimicStep_M (ht : t.Ok s) (hs : t.Simple s) {q : ℕ → K} (hq : s.At q) {x : ℕ × ℕ} (hx : x ∈ t.mims) {d : Data K}
    (hd : MRead s t q x.1 d) {i k j l : ℕ} (i1 : 1 ≤ i) (hi : i < s.n) (hni : t.mim i = none) (hk : k < s.jnv i)
    (j1 : 1 ≤ j) (hj : j < s.n) (hnj : t.mim j = none) (hl : l < s.jnv j) (hrc : s.iv i + k ≤ s.iv j + l) :
    (crbaWorldMimicStep s t d x).M (s.iv i + k) (s.iv j + l)
      = d.M (s.iv i + k) (s.iv j + l) + mimTerm s t q i k j l x.1 := by
  classical
  obtain ⟨m, sub⟩ := x
  have hmm : m ∈ t.mims.map (·.1) := List.mem_map_of_mem (f := Prod.fst) hx
  obtain ⟨⟨m1, mn⟩, hsome⟩ := (ht.mem m).1 hmm
  obtain ⟨p0, hm⟩ := Option.isSome_iff_exists.1 hsome
  obtain ⟨⟨p1, pm⟩, hpn, hivm, hjm, hjp⟩ := ht.mim m p0 m1 mn hm
  have hp := ht.ext.par
  have hP := own_packed ht
  have hc := compact_of ht
  obtain ⟨R, hRn, hRm, -, e1, e2⟩ := up_lists ht hs m1 mn hm
  have jo : ∀ a, t.mim a = none → (s.own t).jnv a = s.jnv a := fun a hn => by rw [own_jnv, if_neg (by simp [hn])]
  -- a coordinate of a joint is that of the followed joint only for this joint
  have inj : ∀ {a b a' b' : ℕ}, 1 ≤ a → a < s.n → t.mim a = none → b < s.jnv a → 1 ≤ a' → a' < s.n → t.mim a' = none →
      b' < s.jnv a' → s.iv a + b = s.iv a' + b' → a = a' ∧ b = b' := by
    intro a b a' b' h1 h2 h3 h4 h5 h6 h7 h8 e
    exact hP.inj h1 h2 h5 h6 (by rw [jo a h3]; exact h4) (by rw [jo a' h7]; exact h8)
      (by rw [own_iv ht h1 h2 h3, own_iv ht h5 h6 h7]; exact e)
  have mono : ∀ {a b : ℕ}, 1 ≤ a → t.mim a = none → t.mim b = none → a < b → b < s.n → s.iv a + s.jnv a ≤ s.iv b := by
    intro a b h1 h2 h3 h4 h5
    have := hP.mono h1 h4 h5
    rwa [own_iv ht h1 (by omega) h2, own_iv ht (by omega) h5 h3, jo a h2] at this
  have ip : ∀ {a b : ℕ}, 1 ≤ a → a < s.n → t.mim a = none → b < s.jnv a → (s.iv a + b = s.iv m ↔ a = p0) := by
    intro a b h1 h2 h3 h4
    rw [hivm]
    constructor
    · intro e
      exact (inj h1 h2 h3 h4 p1 (by omega) hpn (show 0 < s.jnv p0 by omega) (by omega)).1
    · rintro rfl; omega
  -- the members of the lists
  have hJ0 : d.J (t.ivx m) = s.Jc q m 0 := hd.J m m1 mn 0 (by omega)
  have hA : ∀ w : Motion K, (d.oYcrb m).mul w = (s.oYm q m).mulMF w := fun w => by
    rw [← Inertia.matrix_mulMF, hd.Y m mn]
  have E1 : ∀ M, (t.up1 s m).foldl (crbaWorldUp1 s t m d.J (fun k => (d.oYcrb m).mul (d.J (t.ivx m + k)))) M
      (s.iv i + k) (s.iv j + l) = M (s.iv i + k) (s.iv j + l) +
        if i = p0 ∧ (j ∈ R ∧ s.iv m ≤ s.iv j) then (if j = p0 then 2 else 1) * Mx s t q j l m 0 else 0 := by
    intro M
    rw [foldl_add (g := fun p => if i = p0 ∧ p = j then (if j = p0 then 2 else 1) * Mx s t q j l m 0 else 0)]
    · congr 1
      rw [sum_map_single (a := j)]
      · have hmj : j ∈ t.up1 s m ↔ j ∈ R ∧ s.iv m ≤ s.iv j := by rw [e1, List.mem_filter]; simp
        simp only [hmj, and_true]
        by_cases h1 : i = p0 <;> by_cases h2 : j ∈ R ∧ s.iv m ≤ s.iv j <;> simp [h1, h2]
      · rw [e1]; exact hRn.filter _
      · intro p _ hne
        rw [if_neg]
        rintro ⟨-, e⟩; exact hne e
    · intro M p hpU
      rw [e1, List.mem_filter] at hpU
      obtain ⟨hpR, hpv⟩ := hpU
      obtain ⟨q1, qm, qa⟩ := (hRm p).1 hpR
      simp only [decide_eq_true_eq] at hpv
      have qle := anc_le hp m mn qa
      have qn := anc_plain ht hs m1 mn hm q1 qa qm
      have q1' : s.jnv p = 1 := hs.single m p0 p m1 mn hm q1 qa qn (by omega)
      have hnv : t.nvs p = 1 := by rw [ht.nvs p q1 (by omega), if_neg (by simp [qn]), q1']
      have hcond : ((s.iv m ≤ s.iv i + k ∧ s.iv i + k < s.iv m + s.jnv m) ∧
          (s.iv p ≤ s.iv j + l ∧ s.iv j + l < s.iv p + t.nvs p)) ↔ (i = p0 ∧ p = j) := by
        rw [hjm, hnv, ← ip i1 hi hni hk]
        constructor
        · rintro ⟨a, b⟩
          refine ⟨by omega, (inj q1 (by omega) qn (show 0 < s.jnv p by omega) j1 hj hnj hl (by omega)).1⟩
        · rintro ⟨a, rfl⟩
          rw [q1'] at hl
          omega
      have hval : i = p0 ∧ p = j → (d.J (t.ivx p + (s.iv i + k - s.iv m))).dot
          ((fun k => (d.oYcrb m).mul (d.J (t.ivx m + k))) (s.iv j + l - s.iv p)) = Mx s t q j l m 0 := by
        rintro ⟨a, rfl⟩
        have hk0 := (ip i1 hi hni hk).2 a
        have hl0 : l = 0 := by omega
        subst hl0
        rw [Mx_anc ht hq j1 hj hl mn (by omega) qa]
        beta_reduce
        rw [show s.iv i + k - s.iv m = 0 by omega, show s.iv p + 0 - s.iv p = 0 by omega, hA,
          hd.J p j1 hj 0 (by omega), hd.J m m1 mn 0 (by omega)]
      unfold crbaWorldUp1
      by_cases h : i = p0 ∧ p = j
      · by_cases h0 : t.mim m = some p
        · rw [if_pos h0, addBlock_apply, addBlock_apply, if_pos (hcond.2 h), hval h, if_pos h]
          have : j = p0 := by rw [hm] at h0; rw [← h.2]; exact (Option.some.inj h0).symm
          rw [if_pos this]; ring
        · rw [if_neg h0, addBlock_apply, if_pos (hcond.2 h), hval h, if_pos h]
          have : j ≠ p0 := by rintro rfl; exact h0 (by rw [h.2, hm])
          rw [if_neg this, one_mul]
      · rw [if_neg h]
        split
        · rw [addBlock_apply, addBlock_apply, if_neg (fun hc' => h (hcond.1 hc')), add_zero]
        · rw [addBlock_apply, if_neg (fun hc' => h (hcond.1 hc'))]
  have E2 : ∀ M, (t.up2 s m).foldl (crbaWorldUp2 s t m d.J (fun k => (d.oYcrb m).mul (d.J (t.ivx m + k)))) M
      (s.iv i + k) (s.iv j + l) = M (s.iv i + k) (s.iv j + l) +
        if j = p0 ∧ (i ∈ R ∧ ¬ s.iv m ≤ s.iv i) then Mx s t q i k m 0 else 0 := by
    intro M
    rw [foldl_add (g := fun p => if j = p0 ∧ p = i then Mx s t q i k m 0 else 0)]
    · congr 1
      rw [sum_map_single (a := i)]
      · have hmi : i ∈ t.up2 s m ↔ i ∈ R ∧ ¬ s.iv m ≤ s.iv i := by rw [e2, List.mem_filter]; simp
        simp only [hmi, and_true]
        by_cases h1 : j = p0 <;> by_cases h2 : i ∈ R ∧ ¬ s.iv m ≤ s.iv i <;> simp [h1, h2]
      · rw [e2]; exact hRn.filter _
      · intro p _ hne
        rw [if_neg]
        rintro ⟨-, e⟩; exact hne e
    · intro M p hpU
      rw [e2, List.mem_filter] at hpU
      obtain ⟨hpR, -⟩ := hpU
      obtain ⟨q1, qm, qa⟩ := (hRm p).1 hpR
      have qle := anc_le hp m mn qa
      have qn := anc_plain ht hs m1 mn hm q1 qa qm
      have hnv : t.nvs p = s.jnv p := by rw [ht.nvs p q1 (by omega), if_neg (by simp [qn])]
      have hcond : ((s.iv p ≤ s.iv i + k ∧ s.iv i + k < s.iv p + t.nvs p) ∧
          (s.iv m ≤ s.iv j + l ∧ s.iv j + l < s.iv m + s.jnv m)) ↔ (j = p0 ∧ p = i) := by
        rw [hjm, hnv, ← ip j1 hj hnj hl]
        constructor
        · rintro ⟨a, b⟩
          refine ⟨by omega, (inj q1 (by omega) qn (show s.iv i + k - s.iv p < s.jnv p by omega) i1 hi hni hk (by omega)).1⟩
        · rintro ⟨a, rfl⟩
          omega
      unfold crbaWorldUp2
      rw [addBlock_apply]
      by_cases h : j = p0 ∧ p = i
      · rw [if_pos (hcond.2 h), if_pos h]
        obtain ⟨a, rfl⟩ := h
        have hk0 := (ip j1 hj hnj hl).2 a
        rw [Mx_anc ht hq i1 hi hk mn (by omega) qa, show s.iv p + k - s.iv p = k by omega,
          show s.iv j + l - s.iv m = 0 by omega]
        beta_reduce
        rw [hA, hd.J p i1 hi k hk, hd.J m m1 mn 0 (by omega)]
      · rw [if_neg (fun hc' => h (hcond.1 hc')), if_neg h]
  -- the subtree of the mimic joint
  have E3 : ∀ M : ℕ → ℕ → K, (if sub ≠ 0 then addBlock M (s.iv m) (s.iv sub) (s.jnv m) (t.nvSub sub).toNat
      (fun a b => (d.J (t.ivx m + a)).dot (d.Ag (s.iv sub + b))) else M) (s.iv i + k) (s.iv j + l)
      = M (s.iv i + k) (s.iv j + l) + if i = p0 ∧ (anc s.par m j ∧ j ≠ m) then Mx s t q m 0 j l else 0 := by
    intro M
    rcases hs.branch (m, sub) hx with ⟨h0, hleaf⟩ | ⟨hlt, hsn, hsa, hall⟩
    · dsimp only at h0 hleaf
      rw [if_neg (by simpa using h0), if_neg, add_zero]
      rintro ⟨-, a, b⟩
      exact b (hleaf j hj a)
    · dsimp only at hlt hsn hsa hall
      have hsn' := desc_plain ht hs m1 mn hm hsn hsa (by omega)
      have hcol := hP.nvSub_iff hc (i := sub) (j := j) (l := l) (by omega) hsn j1 hj (by rw [jo j hnj]; exact hl)
      rw [own_iv ht (by omega) hsn hsn', own_iv ht j1 hj hnj, own_nvSub ht (by omega) hsn,
        show (s.own t).par = s.par from rfl] at hcol
      rw [if_pos (by omega), addBlock_apply, hs.sub sub (by omega) hsn hsn', Int.toNat_natCast, hjm]
      congr 1
      have hcond : ((s.iv m ≤ s.iv i + k ∧ s.iv i + k < s.iv m + 1) ∧ (s.iv sub ≤ s.iv j + l ∧
          s.iv j + l < s.iv sub + ∑ j ∈ subtree s.par s.n sub, t.nvs j)) ↔ i = p0 ∧ (anc s.par m j ∧ j ≠ m) := by
        rw [hcol, ← ip i1 hi hni hk]
        constructor
        · rintro ⟨a, b⟩
          have := anc_le hp j hj b
          exact ⟨by omega, anc_trans hp hsa j hj b, by omega⟩
        · rintro ⟨a, b, c⟩
          refine ⟨by omega, ?_⟩
          rcases hall j hj b with e | e
          · exact absurd e c
          · exact e
      by_cases h : i = p0 ∧ (anc s.par m j ∧ j ≠ m)
      · rw [if_pos (hcond.2 h), if_pos h]
        have hh := hcond.2 h
        have hmj := anc_le hp j hj h.2.1
        rw [Mx_anc ht hq m1 mn (by omega) hj hl h.2.1, show s.iv i + k - s.iv m = 0 by omega,
          show s.iv sub + (s.iv j + l - s.iv sub) = s.iv j + l by omega, hd.J m m1 mn 0 (by omega),
          hd.Ag j hmj hj hnj l hl]
      · rw [if_neg (fun hc' => h (hcond.1 hc')), if_neg h]
  have E0 : (addBlock d.M (s.iv m) (s.iv m) (s.jnv m) (s.jnv m) (fun a b => (d.J (t.ivx m + a)).dot
      ((d.oYcrb m).mul (d.J (t.ivx m + b))))) (s.iv i + k) (s.iv j + l)
      = d.M (s.iv i + k) (s.iv j + l) + if i = p0 ∧ j = p0 then Mx s t q m 0 m 0 else 0 := by
    rw [addBlock_apply, hjm]
    congr 1
    have hcond : ((s.iv m ≤ s.iv i + k ∧ s.iv i + k < s.iv m + 1) ∧ (s.iv m ≤ s.iv j + l ∧ s.iv j + l < s.iv m + 1)) ↔
        i = p0 ∧ j = p0 := by
      rw [← ip i1 hi hni hk, ← ip j1 hj hnj hl]; omega
    by_cases h : i = p0 ∧ j = p0
    · rw [if_pos (hcond.2 h), if_pos h]
      have hh := hcond.2 h
      rw [Mx_anc ht hq m1 mn (by omega) mn (by omega) (anc_refl hp mn), show s.iv i + k - s.iv m = 0 by omega,
        show s.iv j + l - s.iv m = 0 by omega, hA, hd.J m m1 mn 0 (by omega)]
    · rw [if_neg (fun hc' => h (hcond.1 hc')), if_neg h]
  unfold crbaWorldMimicStep mimTerm
  dsimp only
  simp only [ip i1 hi hni hk, ip j1 hj hnj hl]
  rw [E2, E1, E3, E0, add_assoc, add_assoc, add_assoc]
  congr 1
  -- the four terms
  have hjm' : j ≠ m := by rintro rfl; rw [hm] at hnj; cases hnj
  have him' : i ≠ m := by rintro rfl; rw [hm] at hni; cases hni
  by_cases hip : i = p0 <;> by_cases hjp' : j = p0
  · subst hip
    subst hjp'
    have hk0 : k = 0 := by omega
    have hl0 : l = 0 := by omega
    subst hk0
    subst hl0
    have h1 : ¬ (anc s.par m j ∧ j ≠ m) := fun h => by have := anc_le hp j hj h.1; omega
    have h2 : ¬ (j ∈ R ∧ ¬ s.iv m ≤ s.iv j) := fun h => h.2 (by omega)
    simp only [true_and, if_true, and_self, if_neg h1, if_neg h2]
    by_cases hja : anc s.par j m
    · have h3 : j ∈ R ∧ s.iv m ≤ s.iv j := ⟨(hRm j).2 ⟨j1, hjm', hja⟩, by omega⟩
      rw [if_pos h3, Mx_symm q m 0 j 0]; ring
    · have h3 : ¬ (j ∈ R ∧ s.iv m ≤ s.iv j) := fun h => hja ((hRm j).1 h.1).2.2
      have h4 : ¬ anc s.par m j := fun h => h1 ⟨h, hjm'⟩
      rw [if_neg h3, Mx_symm q m 0 j 0, Mx_un ht hq j1 hj hl m1 mn (by omega) hja h4]; ring
  · subst hip
    simp only [true_and, if_true, hjp', if_false, and_false, false_and, add_zero, zero_add, one_mul]
    have hlt : s.iv m < s.iv j + l := by
      have : s.iv i + k ≠ s.iv j + l := fun e => by
        have := (inj i1 hi hni hk j1 hj hnj hl e).1
        exact hjp' this.symm
      have := (ip i1 hi hni hk).2 rfl
      omega
    by_cases ha : anc s.par m j
    · have h3 : ¬ (j ∈ R ∧ s.iv m ≤ s.iv j) := fun h => by
        have a := anc_le hp m mn ((hRm j).1 h.1).2.2
        have b := anc_le hp j hj ha
        exact hjm' (by omega)
      rw [if_pos ⟨ha, hjm'⟩, if_neg h3, add_zero]
    · rw [if_neg (fun h => ha h.1), zero_add]
      by_cases hb : anc s.par j m
      · have h3 : j ∈ R ∧ s.iv m ≤ s.iv j := by
          refine ⟨(hRm j).2 ⟨j1, hjm', hb⟩, ?_⟩
          rcases lt_trichotomy i j with h | h | h
          · have := mono i1 hni hnj h hj; omega
          · exact absurd h.symm hjp'
          · have := mono j1 hnj hni h hi; omega
        rw [if_pos h3, Mx_symm]
      · rw [if_neg (fun h => hb ((hRm j).1 h.1).2.2), Mx_un ht hq m1 mn (by omega) j1 hj hl ha hb]
  · subst hjp'
    simp only [true_and, if_true, hip, if_false, false_and, add_zero, zero_add]
    have hlt : s.iv i + k < s.iv m := by
      have : s.iv i + k ≠ s.iv j + l := fun e => hip (inj i1 hi hni hk j1 hj hnj hl e).1
      have := (ip j1 hj hnj hl).2 rfl
      omega
    by_cases hb : anc s.par i m
    · rw [if_pos ⟨(hRm i).2 ⟨i1, him', hb⟩, by omega⟩]
    · have ha : ¬ anc s.par m i := fun h => by
        have := anc_le hp i hi h
        have := mono j1 hnj hni (show j < i by omega) hi
        omega
      rw [if_neg (fun h => hb ((hRm i).1 h.1).2.2), Mx_un ht hq i1 hi hk m1 mn (by omega) hb ha]
  · simp [hip, hjp']

/-! ## all the mimic steps -/

/-- the centroidal column of a mimic joint -/
noncomputable def agTerm (s : Sys K) (q : ℕ → K) (r m : ℕ) : Force K :=
  if r = s.iv m then (s.oYm q m).mulMF (s.Jc q m 0) else 0

theorem mimicStep_Ag (ht : t.Ok s) {q : ℕ → K} {x : ℕ × ℕ} (hx : x ∈ t.mims) {d : Data K}
    (hd : MRead s t q x.1 d) (r : ℕ) : (crbaWorldMimicStep s t d x).Ag r = d.Ag r + agTerm s q r x.1 := by
  obtain ⟨m, sub⟩ := x
  have hmm : m ∈ t.mims.map (·.1) := List.mem_map_of_mem (f := Prod.fst) hx
  obtain ⟨⟨m1, mn⟩, hsome⟩ := (ht.mem m).1 hmm
  obtain ⟨p0, hm⟩ := Option.isSome_iff_exists.1 hsome
  obtain ⟨-, -, -, hjm, -⟩ := ht.mim m p0 m1 mn hm
  have hJ0 : d.J (t.ivx m + 0) = s.Jc q m 0 := hd.J m m1 mn 0 (by omega)
  unfold crbaWorldMimicStep agTerm putSeg
  dsimp only
  by_cases h : r = s.iv m
  · rw [if_pos (by omega), if_pos h, show r - s.iv m = 0 by omega, hJ0, ← Inertia.matrix_mulMF, hd.Y m mn, h, add_zero]
  · rw [if_neg (by omega), if_neg h, add_zero]

theorem mimicStep_read (ht : t.Ok s) {q : ℕ → K} {x : ℕ × ℕ} (hx : x ∈ t.mims) {d : Data K}
    (hd : MRead s t q x.1 d) {m' : ℕ} (hm' : x.1 ≤ m') : MRead s t q m' (crbaWorldMimicStep s t d x) := by
  refine ⟨hd.J, hd.Y, fun i hi hin hn l hl => ?_⟩
  rw [mimicStep_Ag ht hx hd, hd.Ag i (by omega) hin hn l hl, agTerm, if_neg, add_zero]
  obtain ⟨m, sub⟩ := x
  have hmm : m ∈ t.mims.map (·.1) := List.mem_map_of_mem (f := Prod.fst) hx
  obtain ⟨⟨m1, mn⟩, hsome⟩ := (ht.mem m).1 hmm
  obtain ⟨p0, hm⟩ := Option.isSome_iff_exists.1 hsome
  obtain ⟨⟨p1, pm⟩, hpn, hivm, hjm, hjp⟩ := ht.mim m p0 m1 mn hm
  dsimp only at *
  intro e
  have hP := own_packed ht
  have := (hP.inj (show 1 ≤ i by omega) hin p1 (show p0 < s.n by omega) (k := l) (l := 0)
    (by rw [own_jnv, if_neg (by simp [hn])]; exact hl) (by rw [own_jnv, if_neg (by simp [hpn])]; omega)
    (by rw [own_iv ht (by omega) hin hn, own_iv ht p1 (by omega) hpn]; omega)).1
  omega

theorem mimicFold (ht : t.Ok s) (hs : t.Simple s) {q : ℕ → K} (hq : s.At q) : ∀ {L : List (ℕ × ℕ)}, (∀ x ∈ L, x ∈ t.mims) →
    (L.map (·.1)).Pairwise (· < ·) → ∀ {d : Data K}, (∀ x ∈ L, MRead s t q x.1 d) →
    (L.foldl (crbaWorldMimicStep s t) d).oYcrb = d.oYcrb ∧
    (∀ r, (L.foldl (crbaWorldMimicStep s t) d).Ag r = d.Ag r + ((L.map (·.1)).map (agTerm s q r)).sum) ∧
    (∀ i k j l, 1 ≤ i → i < s.n → t.mim i = none → k < s.jnv i → 1 ≤ j → j < s.n → t.mim j = none → l < s.jnv j →
      s.iv i + k ≤ s.iv j + l → (L.foldl (crbaWorldMimicStep s t) d).M (s.iv i + k) (s.iv j + l)
        = d.M (s.iv i + k) (s.iv j + l) + ((L.map (·.1)).map (mimTerm s t q i k j l)).sum) := by
  intro L
  induction L with
  | nil => intro _ _ d _; simp
  | cons x L ih =>
    intro hL hp d hd
    rw [List.map_cons, List.pairwise_cons] at hp
    have hx := hL x (by simp)
    have hdx := hd x (by simp)
    obtain ⟨a, b, c⟩ := ih (fun y hy => hL y (by simp [hy])) hp.2 (d := crbaWorldMimicStep s t d x) (fun y hy =>
      mimicStep_read ht hx hdx (hp.1 y.1 (List.mem_map_of_mem (f := Prod.fst) hy)).le)
    refine ⟨a, fun r => ?_, ?_⟩
    · rw [List.foldl_cons, b, mimicStep_Ag ht hx hdx, List.map_cons, List.map_cons, List.sum_cons, add_assoc]
    · intro i k j l i1 hi hni hk j1 hj hnj hl hrc
      rw [List.foldl_cons, c i k j l i1 hi hni hk j1 hj hnj hl hrc,
        mimicStep_M ht hs hq hx hdx i1 hi hni hk j1 hj hnj hl hrc, List.map_cons, List.map_cons, List.sum_cons, add_assoc]

theorem mims_sum {α : Type*} [AddCommMonoid α] (ht : t.Ok s) (f : ℕ → α) :
    ((t.mims.map (·.1)).map f).sum = ∑ i ∈ Ico 1 s.n, if (t.mim i).isSome then f i else 0 := by
  rw [← List.sum_toFinset f (ht.sorted.imp (fun h => by omega)), ← sum_filter]
  apply sum_congr _ (fun _ _ => rfl)
  ext i
  rw [List.mem_toFinset, ht.mem, mem_filter, mem_Ico]

/-! ## the mass matrix as sums over all the joints -/

open Classical in
/-- the velocities of all the joints, mimic joints included -/
noncomputable def spread (s : Sys K) (t : MimTab) (w : ℕ → K) (r : ℕ) : K :=
  if h : ∃ p : ℕ × ℕ, (1 ≤ p.1 ∧ p.1 < s.n) ∧ p.2 < s.jnv p.1 ∧ r = t.ivx p.1 + p.2 then
    w (s.iv h.choose.1 + h.choose.2) else 0

theorem spread_apply (ht : t.Ok s) (w : ℕ → K) {i l : ℕ} (h1 : 1 ≤ i) (hi : i < s.n) (hl : l < s.jnv i) :
    spread s t w (t.ivx i + l) = w (s.iv i + l) := by
  have h : ∃ p : ℕ × ℕ, (1 ≤ p.1 ∧ p.1 < s.n) ∧ p.2 < s.jnv p.1 ∧ t.ivx i + l = t.ivx p.1 + p.2 :=
    ⟨(i, l), ⟨h1, hi⟩, hl, rfl⟩
  unfold spread
  rw [dif_pos h]
  obtain ⟨⟨a, b⟩, c, e⟩ := h.choose_spec
  obtain ⟨e1, e2⟩ := ht.ext.inj h1 hi a b hl c e
  rw [← e1, ← e2]

theorem spread_V (ht : t.Ok s) (q w : ℕ → K) : ∀ i, i < s.n → (s.ext t).V q (spread s t w) i = s.V q w i := by
  intro i
  induction i using Nat.strong_induction_on with
  | _ i ih =>
    intro hi
    rcases Nat.eq_zero_or_pos i with rfl | h1
    · rw [Sys.V_zero, Sys.V_zero]
    · have hp : s.par i < i := ht.ext.par.2 i h1 hi
      rw [Sys.V_step _ h1 (show (s.ext t).par i < i from hp), Sys.V_step _ h1 hp,
        show (s.ext t).par i = s.par i from rfl, ih _ hp (by omega)]
      congr 1
      unfold Sys.jvel comb
      apply sum_congr rfl
      intro k hk
      rw [mem_range] at hk
      have : (s.ext t).vs (spread s t w) i k = s.vs w i k := spread_apply ht w h1 hi hk
      rw [this]
      rfl

theorem spread_hsum (ht : t.Ok s) (q w : ℕ → K) : (s.ext t).hsum q (spread s t w) = s.hsum q w := by
  unfold Sys.hsum
  apply sum_congr rfl
  intro i hi
  rw [spread_V ht q w i (mem_Ico.1 hi).2]
  rfl

theorem spread_massForm (ht : t.Ok s) (q u w : ℕ → K) :
    s.massForm q u w = (s.ext t).massForm q (spread s t u) (spread s t w) + s.dotv u (fun r => s.arm r * w r) := by
  unfold Sys.massForm
  have : (s.ext t).dotv (spread s t u) (fun r => (s.ext t).arm r * spread s t w r) = 0 := by
    unfold Sys.dotv
    apply sum_eq_zero
    intro r _
    change _ * ((0 : K) * _) = 0
    ring
  rw [this, add_zero]
  congr 1
  apply sum_congr rfl
  intro i hi
  rw [spread_V ht q u i (mem_Ico.1 hi).2, spread_V ht q w i (mem_Ico.1 hi).2]
  rfl

/-- the columns of all the joints which move with coordinate `l` of joint `j` -/
theorem fiber {α : Type*} [AddCommMonoid α] [Module K α] (ht : t.Ok s) {j l : ℕ} (j1 : 1 ≤ j) (hj : j < s.n)
    (hnj : t.mim j = none) (hl : l < s.jnv j) (F : ℕ → ℕ → α) :
    ∑ i ∈ Ico 1 s.n, ∑ k ∈ range (s.jnv i), (Sys.unit (s.iv j + l) (s.iv i + k) : K) • F i k
      = F j l + ∑ i ∈ Ico 1 s.n, if (t.mim i).isSome then (if s.iv j + l = s.iv i then F i 0 else 0) else 0 := by
  have hP := own_packed ht
  rw [show F j l = ∑ i ∈ Ico 1 s.n, if i = j then F j l else 0 by
    rw [sum_ite_eq' (Ico 1 s.n) j (fun _ => F j l), if_pos (mem_Ico.2 ⟨j1, hj⟩)], ← sum_add_distrib]
  apply sum_congr rfl
  intro i hi
  obtain ⟨i1, hi⟩ := mem_Ico.1 hi
  cases hm : t.mim i with
  | some p =>
    obtain ⟨-, -, -, hjm, -⟩ := ht.mim i p i1 hi hm
    have : i ≠ j := by rintro rfl; rw [hm] at hnj; cases hnj
    rw [hjm, sum_range_one, if_neg this, zero_add]
    simp only [Option.isSome_some, if_true, Sys.unit, add_zero]
    by_cases e : s.iv i = s.iv j + l
    · rw [if_pos e, if_pos e.symm, one_smul]
    · rw [if_neg e, if_neg (Ne.symm e), zero_smul]
  | none =>
    simp only [Option.isSome_none, Bool.false_eq_true, if_false, add_zero]
    have key : ∀ k, k < s.jnv i → s.iv i + k = s.iv j + l → i = j ∧ k = l := fun k hk e =>
      hP.inj i1 hi j1 hj (by rw [own_jnv, if_neg (by simp [hm])]; exact hk)
        (by rw [own_jnv, if_neg (by simp [hnj])]; exact hl) (by rw [own_iv ht i1 hi hm, own_iv ht j1 hj hnj]; exact e)
    by_cases e : i = j
    · subst e
      rw [if_pos rfl, sum_eq_single l]
      · simp [Sys.unit]
      · intro k hk hne
        rw [Sys.unit, if_neg (by omega), zero_smul]
      · intro h; exact absurd (mem_range.2 hl) h
    · rw [if_neg e]
      apply sum_eq_zero
      intro k hk
      rw [Sys.unit, if_neg (fun h => e (key k (mem_range.1 hk) h).1), zero_smul]

/-- the form of the extended system, by entries -/
theorem ext_massForm (ht : t.Ok s) (q u w : ℕ → K) :
    (s.ext t).massForm q (spread s t u) (spread s t w) = ∑ j ∈ Ico 1 s.n, ∑ l ∈ range (s.jnv j), w (s.iv j + l) •
      ∑ i ∈ Ico 1 s.n, ∑ k ∈ range (s.jnv i), u (s.iv i + k) • Mx s t q i k j l := by
  rw [Sys.massForm_coord ht.ext.wf, ← ht.ext.sum_seg]
  apply sum_congr rfl
  intro j hj
  obtain ⟨j1, hj⟩ := mem_Ico.1 hj
  apply sum_congr rfl
  intro l hl
  replace hl := mem_range.1 hl
  rw [show (s.ext t).iv j = t.ivx j from rfl, spread_apply ht w j1 hj hl, mul_comm, smul_eq_mul]
  congr 1
  rw [Sys.massForm_symm, Sys.massForm_coord ht.ext.wf, ← ht.ext.sum_seg]
  apply sum_congr rfl
  intro i hi
  obtain ⟨i1, hi⟩ := mem_Ico.1 hi
  apply sum_congr rfl
  intro k hk
  replace hk := mem_range.1 hk
  rw [show (s.ext t).iv i = t.ivx i from rfl, spread_apply ht u i1 hi hk, mul_comm, smul_eq_mul, Sys.massForm_symm]
  rfl

/-- the mass matrix of the model is what the backward pass and the mimic steps add up -/
theorem massForm_mimic (ht : t.Ok s) (hs : t.Simple s) {q : ℕ → K} (hq : s.At q) {i k j l : ℕ} (i1 : 1 ≤ i) (hi : i < s.n)
    (hni : t.mim i = none) (hk : k < s.jnv i) (j1 : 1 ≤ j) (hj : j < s.n) (hnj : t.mim j = none) (hl : l < s.jnv j) :
    s.massForm q (Sys.unit (s.iv i + k)) (Sys.unit (s.iv j + l))
      = Mx s t q i k j l + (∑ m ∈ Ico 1 s.n, if (t.mim m).isSome then mimTerm s t q i k j l m else 0)
        + s.dotv (Sys.unit (s.iv i + k)) (fun r => s.arm r * Sys.unit (s.iv j + l) r) := by
  rw [spread_massForm ht, ext_massForm ht, fiber ht j1 hj hnj hl]
  congr 1
  rw [fiber ht i1 hi hni hk (fun a b => Mx s t q a b j l), add_assoc]
  congr 1
  rw [← sum_add_distrib]
  apply sum_congr rfl
  intro m hm
  obtain ⟨m1, mn⟩ := mem_Ico.1 hm
  by_cases hsm : (t.mim m).isSome
  · simp only [hsm, if_true]
    obtain ⟨p, hmp⟩ := Option.isSome_iff_exists.1 hsm
    obtain ⟨-, -, -, hjm, -⟩ := ht.mim m p m1 mn hmp
    unfold mimTerm
    rw [fiber ht i1 hi hni hk (fun a b => Mx s t q a b m 0), sum_eq_single m]
    · rw [if_pos hsm]
      by_cases e1 : s.iv i + k = s.iv m <;> by_cases e2 : s.iv j + l = s.iv m <;> (simp [e1, e2]; try ring)
    · intro m' hm' hne
      obtain ⟨m1', mn'⟩ := mem_Ico.1 hm'
      by_cases hsm' : (t.mim m').isSome
      · obtain ⟨p', hmp'⟩ := Option.isSome_iff_exists.1 hsm'
        obtain ⟨-, -, -, hjm', -⟩ := ht.mim m' p' m1' mn' hmp'
        rw [if_pos hsm', Mx_un ht hq m1' mn' (by omega) m1 mn (by omega)
          (fun h => hne (hs.alone m' m m1' mn' mn hsm' hsm h)) (fun h => hne (hs.alone m m' m1 mn mn' hsm hsm' h).symm),
          ite_self]
      · rw [if_neg hsm']
    · intro h; exact absurd hm h
  · simp only [hsm, if_false, add_zero, Bool.false_eq_true]

/-! ## no access out of range -/

theorem crbaOk_of (ht : t.Ok s) (hs : t.Simple s) : crbaOk s t = true := by
  have hP := own_packed ht
  have hc := compact_of ht
  have hcol : ∀ i, 1 ≤ i → i < s.n → t.mim i = none → colsOk s t i = true := by
    intro i i1 hi hn
    unfold colsOk
    rw [hs.sub i i1 hi hn]
    have : s.iv i + ∑ j ∈ subtree s.par s.n i, t.nvs j ≤ s.nv := by
      rw [ht.iv i i1 hi hn, ht.nv, ← sum_Ico_consecutive _ i1 hi.le]
      refine Nat.add_le_add_left (sum_le_sum_of_subset fun j hj => ?_) _
      obtain ⟨hjn, hja⟩ := mem_subtree.1 hj
      exact mem_Ico.2 ⟨anc_le ht.ext.par j hjn.2 hja, hjn.2⟩
    simp only [decide_eq_true_eq]
    constructor <;> omega
  unfold crbaOk
  rw [Bool.and_eq_true, List.all_eq_true, List.all_eq_true]
  constructor
  · intro i hi
    rw [List.mem_range'_1] at hi
    cases hm : t.mim i with
    | some p => rfl
    | none => rw [hcol i (by omega) (by omega) hm, Bool.or_true]
  · rintro ⟨m, sub⟩ hx
    have hmm : m ∈ t.mims.map (·.1) := List.mem_map_of_mem (f := Prod.fst) hx
    obtain ⟨⟨m1, mn⟩, hsome⟩ := (ht.mem m).1 hmm
    obtain ⟨p0, hm⟩ := Option.isSome_iff_exists.1 hsome
    obtain ⟨⟨p1, pm⟩, hpn, hivm, hjm, hjp⟩ := ht.mim m p0 m1 mn hm
    obtain ⟨R, hRn, hRm, hup, e1, e2⟩ := up_lists ht hs m1 mn hm
    unfold mimicStepOk
    dsimp only
    rw [Bool.and_eq_true, Bool.and_eq_true]
    refine ⟨⟨?_, ?_⟩, ?_⟩
    · rcases hs.branch (m, sub) hx with ⟨h0, -⟩ | ⟨hlt, hsn, hsa, -⟩
      · dsimp only at h0; simp [h0]
      · dsimp only at hlt hsn hsa
        rw [hcol sub (by omega) hsn (desc_plain ht hs m1 mn hm hsn hsa (by omega)), Bool.or_true]
    · rw [hup, List.any_eq_true]
      refine ⟨0, by simp, ?_⟩
      have := hs.first m p0 m1 mn hm
      rw [ht.iv0]
      simp only [decide_eq_true_eq]
      omega
    · rw [e1, List.all_eq_true]
      intro p hp
      rw [List.mem_filter] at hp
      obtain ⟨q1, qm, qa⟩ := (hRm p).1 hp.1
      have hpv := hp.2
      simp only [decide_eq_true_eq] at hpv ⊢
      have qle := anc_le ht.ext.par m mn qa
      have qn := anc_plain ht hs m1 mn hm q1 qa qm
      have q1' : s.jnv p = 1 := hs.single m p0 p m1 mn hm q1 qa qn (by omega)
      right
      rw [ht.nvs p q1 (by omega), if_neg (by simp [qn])]
      omega

end Pin
