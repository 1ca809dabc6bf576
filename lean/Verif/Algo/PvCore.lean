import Verif.Algo.AbaCore
import Verif.Algo.AbaPd

/-!
# The elimination of Popov and Vereshchagin, for any set of constraint forces on the bodies of a tree

Joint `i` has `dim i` rows of constraints: `own i` on its own body, then those of its children, child `k` from row
`pind k` on.
-/

namespace Pin
open Finset

/-- the rows of a joint are its own and those of its children -/
structure Slots (par : ℕ → ℕ) (n : ℕ) (own dim pind : ℕ → ℕ) : Prop where
  own_le : ∀ i < n, own i ≤ dim i
  lo : ∀ c, 1 ≤ c → c < n → own (par c) ≤ pind c
  hi : ∀ c, 1 ≤ c → c < n → pind c + dim c ≤ dim (par c)
  sep : ∀ c c', 1 ≤ c → c < c' → c' < n → par c = par c' → pind c' + dim c' ≤ pind c
  cover : ∀ i < n, ∀ r < dim i, r < own i ∨ ∃ c, (1 ≤ c ∧ c < n) ∧ par c = i ∧ pind c ≤ r ∧ r < pind c + dim c

namespace Slots
variable {par : ℕ → ℕ} {n : ℕ} {own dim pind : ℕ → ℕ}

/-- a row belongs to one child -/
theorem uniq (h : Slots par n own dim pind) {c c' r : ℕ} (h1 : 1 ≤ c) (hc : c < n) (h1' : 1 ≤ c') (hc' : c' < n)
    (hp : par c = par c') (a : pind c ≤ r) (b : r < pind c + dim c) (a' : pind c' ≤ r) (b' : r < pind c' + dim c') :
    c = c' := by
  rcases Nat.lt_trichotomy c c' with e | e | e
  · have := h.sep c c' h1 e hc' hp; omega
  · exact e
  · have := h.sep c' c h1' e hc hp.symm; omega

theorem sum {α : Type*} [AddCommMonoid α] (h : Slots par n own dim pind) {i : ℕ} (hi : i < n) (f : ℕ → α) :
    ∑ c ∈ range (dim i), f c
      = ∑ c ∈ range (own i), f c + ∑ k ∈ kids par n i, ∑ c ∈ range (dim k), f (pind k + c) := by
  have e : range (dim i) = range (own i) ∪ (kids par n i).biUnion (fun k => Ico (pind k) (pind k + dim k)) := by
    ext r
    rw [mem_union, mem_range, mem_range, mem_biUnion]
    constructor
    · intro hr
      rcases h.cover i hi r hr with a | ⟨c, c1, cp, ca, cb⟩
      · exact Or.inl a
      · exact Or.inr ⟨c, mem_kids.2 ⟨c1, cp⟩, mem_Ico.2 ⟨ca, cb⟩⟩
    · rintro (a | ⟨c, hc, hr⟩)
      · have := h.own_le i hi; omega
      · obtain ⟨⟨c1, cn⟩, cp⟩ := mem_kids.1 hc
        have := h.hi c c1 cn
        rw [cp] at this
        rw [mem_Ico] at hr
        omega
  rw [e, sum_union, sum_biUnion]
  · congr 1
    apply sum_congr rfl
    intro k _
    rw [sum_Ico_eq_sum_range]
    simp
  · intro c hc c' hc' hne
    obtain ⟨⟨c1, cn⟩, cp⟩ := mem_kids.1 (mem_coe.1 hc)
    obtain ⟨⟨c1', cn'⟩, cp'⟩ := mem_kids.1 (mem_coe.1 hc')
    rw [Function.onFun, disjoint_left]
    intro r hr hr'
    rw [mem_Ico] at hr hr'
    exact hne (h.uniq c1 cn c1' cn' (cp.trans cp'.symm) hr.1 hr.2 hr'.1 hr'.2)
  · rw [disjoint_left]
    intro r hr hr'
    obtain ⟨c, hc, hr'⟩ := mem_biUnion.1 hr'
    obtain ⟨⟨c1, cn⟩, cp⟩ := mem_kids.1 hc
    have := h.lo c c1 cn
    rw [cp] at this
    rw [mem_range] at hr
    rw [mem_Ico] at hr'
    omega

/-- first row of joint `i` among the rows of the universe -/
def _root_.Pin.rootOff (par pind : ℕ → ℕ) (i : ℕ) : ℕ := treeRec par 0 (fun i x => x + pind i) i

theorem off_zero : rootOff par pind 0 = 0 := treeRec_zero ..

theorem off_step {i : ℕ} (h1 : 1 ≤ i) (hp : par i < i) : rootOff par pind i = rootOff par pind (par i) + pind i :=
  treeRec_step _ _ h1 hp

theorem off_lt (hp : ParOk par n) (h : Slots par n own dim pind) : ∀ k i, i ≤ k → i < n →
    rootOff par pind i + dim i ≤ dim 0 := by
  intro k
  induction k with
  | zero => intro i hi _; obtain rfl : i = 0 := by omega
            rw [off_zero]; omega
  | succ k ih =>
    intro i hi hin
    by_cases h1 : 1 ≤ i
    · have := hp.2 i h1 hin
      have a := ih (par i) (by omega) (by omega)
      have b := h.hi i h1 hin
      rw [off_step h1 this]; omega
    · obtain rfl : i = 0 := by omega
      rw [off_zero]; omega

/-- every row of the universe is a row of one body -/
theorem root_sum {K : Type*} [AddCommGroup K] (hp : ParOk par n) (h : Slots par n own dim pind) (f : ℕ → K) :
    ∑ r ∈ range (dim 0), f r = ∑ i ∈ range n, ∑ c ∈ range (own i), f (rootOff par pind i + c) := by
  have e : ∀ i ∈ range n, ∑ c ∈ range (dim i), f (rootOff par pind i + c)
      = ∑ c ∈ range (own i), f (rootOff par pind i + c)
        + ∑ k ∈ kids par n i, ∑ c ∈ range (dim k), f (rootOff par pind k + c) := by
    intro i hi
    rw [h.sum (mem_range.1 hi)]
    congr 1
    apply sum_congr rfl
    intro k hk
    obtain ⟨⟨k1, kn⟩, kp⟩ := mem_kids.1 hk
    rw [off_step k1 (hp.2 k k1 kn), kp]
    exact sum_congr rfl fun c _ => by rw [add_assoc]
  have e2 := sum_congr rfl e
  rw [sum_add_distrib] at e2
  have e3 : ∑ i ∈ range n, ∑ k ∈ kids par n i, ∑ c ∈ range (dim k), f (rootOff par pind k + c)
      = ∑ k ∈ Ico 1 n, ∑ c ∈ range (dim k), f (rootOff par pind k + c) := by
    unfold kids
    apply sum_fiberwise_of_maps_to
    intro k hk
    rw [mem_Ico] at hk
    have := hp.2 k hk.1 hk.2
    rw [mem_range]; omega
  have hn : n = (n - 1) + 1 := by have := hp.1; omega
  have e4 : ∑ i ∈ range n, ∑ c ∈ range (dim i), f (rootOff par pind i + c)
      = ∑ k ∈ Ico 1 n, ∑ c ∈ range (dim k), f (rootOff par pind k + c) + ∑ r ∈ range (dim 0), f r := by
    rw [range_eq_Ico, sum_eq_sum_Ico_succ_bot (by have := hp.1; omega : 0 < n), add_comm]
    congr 1
    rw [off_zero]
    exact sum_congr rfl fun c _ => by rw [zero_add]
  rw [e4, e3] at e2
  rw [add_comm] at e2
  exact add_right_cancel e2

end Slots

variable {K : Type*} [Field K] {s : Sys K} {P : AbaP K}

theorem Sys.Packed.exists_seg {α : Type*} [Zero α] (h : s.Packed) (f : ℕ → ℕ → α) :
    ∃ u : ℕ → α, ∀ i, 1 ≤ i → i < s.n → ∀ l < s.jnv i, u (s.iv i + l) = f i l := by
  classical
  refine ⟨fun r => if hr : ∃ x : ℕ × ℕ, (1 ≤ x.1 ∧ x.1 < s.n) ∧ x.2 < s.jnv x.1 ∧ r = s.iv x.1 + x.2 then
    f hr.choose.1 hr.choose.2 else 0, fun i h1 hi l hl => ?_⟩
  have hr : ∃ x : ℕ × ℕ, (1 ≤ x.1 ∧ x.1 < s.n) ∧ x.2 < s.jnv x.1 ∧ s.iv i + l = s.iv x.1 + x.2 :=
    ⟨(i, l), ⟨h1, hi⟩, hl, rfl⟩
  dsimp only
  rw [dif_pos hr]
  obtain ⟨⟨a, b⟩, c, e⟩ := hr.choose_spec
  have := h.inj h1 hi a b hl c e
  rw [← this.1, ← this.2]

/-- column `k` of `UDinv` of joint `i`, when its articulated inertia is `A i` -/
def pvUd (s : Sys K) (P : AbaP K) (A : ℕ → M6 K) (i k : ℕ) : Force K :=
  udCol (s.jnv i) (P.S i) (seg s.arm (s.iv i)) (A i) k

/-- entry of `Dinv` of joint `i` -/
def pvDi (s : Sys K) (P : AbaP K) (A : ℕ → M6 K) (i k l : ℕ) : K :=
  invBlock (s.jnv i) (dMat (P.S i) (seg s.arm (s.iv i)) (A i)) k l

/-- what the backward pass leaves in `KA` and (symmetric) `LA` -/
structure PvAcc (s : Sys K) (P : AbaP K) (A : ℕ → M6 K) (own dim pind : ℕ → ℕ) (K0 KA : ℕ → ℕ → Force K)
    (L : ℕ → ℕ → ℕ → K) : Prop where
  own : ∀ i < s.n, ∀ c < own i, KA i c = K0 i c
  up : ∀ i, 1 ≤ i → i < s.n → ∀ c < dim i, KA (s.par i) (pind i + c)
    = P.Tf i (KA i c - ∑ k ∈ range (s.jnv i), (P.S i k).dot (KA i c) • pvUd s P A i k)
  lup : ∀ i, 1 ≤ i → i < s.n → ∀ r < dim i, ∀ c < dim i, L (s.par i) (pind i + r) (pind i + c)
    = L i r c + ∑ k ∈ range (s.jnv i), (P.S i k).dot (KA i r)
      * ∑ l ∈ range (s.jnv i), pvDi s P A i k l * (P.S i l).dot (KA i c)
  cross : ∀ i < s.n, ∀ r < dim i, ∀ c < dim i, L i r c ≠ 0 →
    ∃ k, (1 ≤ k ∧ k < s.n) ∧ s.par k = i ∧ (pind k ≤ r ∧ r < pind k + dim k) ∧ pind k ≤ c ∧ c < pind k + dim k

variable {A : ℕ → M6 K} {own dim pind : ℕ → ℕ} {K0 KA : ℕ → ℕ → Force K} {L : ℕ → ℕ → ℕ → K}

/-- With the forces of the constraints on the bodies, the bias forces of the articulated bodies are those without plus
the multipliers times `KA`. -/
theorem pv_acc (h : Slots s.par s.n own dim pind) (hK : PvAcc s P A own dim pind K0 KA L) {lam : ℕ → ℕ → K}
    (hl : ∀ i, 1 ≤ i → i < s.n → ∀ c < dim i, lam i c = lam (s.par i) (pind i + c))
    (hTf : ∀ i f g, P.Tf i (f + g) = P.Tf i f + P.Tf i g) (hTc : ∀ i (c : K) f, P.Tf i (c • f) = c • P.Tf i f)
    {t : ℕ → K} {I0 : ℕ → M6 K} {p g : ℕ → Force K}
    (hG : IsAcc s.par s.n (artT s P t) (fun i => (I0 i, p i)) (fun i => (A i, g i))) :
    IsAcc s.par s.n (artT s P t) (fun i => (I0 i, p i + ∑ c ∈ range (own i), lam i c • K0 i c))
      (fun i => (A i, g i + ∑ c ∈ range (dim i), lam i c • KA i c)) := by
  have hT0 : ∀ i, P.Tf i 0 = 0 := fun i => by
    have := hTc i 0 0
    rwa [zero_smul, zero_smul] at this
  have hTs : ∀ i (t : Finset ℕ) (f : ℕ → Force K), P.Tf i (∑ c ∈ t, f c) = ∑ c ∈ t, P.Tf i (f c) := by
    intro i t f
    classical
    induction t using Finset.induction_on with
    | empty => rw [sum_empty, sum_empty, hT0]
    | insert a t ha ih => rw [sum_insert ha, sum_insert ha, hTf, ih]
  have key : ∀ k, 1 ≤ k → k < s.n → (artT s P t k (A k, g k + ∑ c ∈ range (dim k), lam k c • KA k c))
      = artT s P t k (A k, g k) + (0, ∑ c ∈ range (dim k), lam k c • KA (s.par k) (pind k + c)) := by
    intro k h1 hk
    unfold artT
    refine Prod.ext (by simp) ?_
    change P.Tf k _ = P.Tf k _ + _
    have e : ∑ c ∈ range (dim k), lam k c • KA (s.par k) (pind k + c)
        = P.Tf k ((∑ c ∈ range (dim k), lam k c • KA k c)
          - ∑ l ∈ range (s.jnv k), (P.S k l).dot (∑ c ∈ range (dim k), lam k c • KA k c) • pvUd s P A k l) := by
      have e1 : (∑ c ∈ range (dim k), lam k c • KA k c)
          - ∑ l ∈ range (s.jnv k), (P.S k l).dot (∑ c ∈ range (dim k), lam k c • KA k c) • pvUd s P A k l
          = ∑ c ∈ range (dim k), lam k c • (KA k c - ∑ l ∈ range (s.jnv k), (P.S k l).dot (KA k c) • pvUd s P A k l) := by
        simp only [smul_sub, sum_sub_distrib, smul_sum]
        congr 1
        rw [sum_comm]
        apply sum_congr rfl
        intro l _
        rw [Motion.dot_sum, sum_smul]
        exact sum_congr rfl fun c _ => by rw [Motion.dot_smul, smul_smul]
      rw [e1, hTs]
      apply sum_congr rfl
      intro c hc
      rw [hTc, hK.up k h1 hk c (mem_range.1 hc)]
    rw [e, ← hTf]
    congr 1
    dsimp only
    unfold pvUd
    simp only [Motion.dot_add, sub_smul, add_smul, sum_sub_distrib, sum_add_distrib]
    abel
  intro i h1 hi
  have e := hG i h1 hi
  rw [sum_congr rfl (g := fun k => artT s P t k (A k, g k)
    + (0, ∑ c ∈ range (dim k), lam k c • KA (s.par k) (pind k + c)))
    (fun k hk => by obtain ⟨⟨k1, kn⟩, -⟩ := mem_kids.1 hk; exact key k k1 kn), sum_add_distrib]
  have e1 : A i = I0 i + ∑ k ∈ kids s.par s.n i, (artT s P t k (A k, g k)).1 := by
    have := congrArg Prod.fst e
    rwa [Prod.fst_add, Prod.fst_sum] at this
  have e2 : g i = p i + ∑ k ∈ kids s.par s.n i, (artT s P t k (A k, g k)).2 := by
    have := congrArg Prod.snd e
    rwa [Prod.snd_add, Prod.snd_sum] at this
  refine Prod.ext ?_ ?_
  · rw [Prod.fst_add, Prod.fst_add, Prod.fst_sum, Prod.fst_sum]
    simp only [sum_const_zero, add_zero]
    exact e1
  · rw [Prod.snd_add, Prod.snd_add, Prod.snd_sum, Prod.snd_sum]
    dsimp only
    rw [h.sum hi]
    conv_lhs => rw [e2]
    have e3 : ∑ c ∈ range (own i), lam i c • KA i c = ∑ c ∈ range (own i), lam i c • K0 i c :=
      sum_congr rfl fun c hc => by rw [hK.own i hi c (mem_range.1 hc)]
    have e4 : ∑ k ∈ kids s.par s.n i, ∑ c ∈ range (dim k), lam i (pind k + c) • KA i (pind k + c)
        = ∑ k ∈ kids s.par s.n i, ∑ c ∈ range (dim k), lam k c • KA (s.par k) (pind k + c) := by
      apply sum_congr rfl
      intro k hk
      obtain ⟨⟨k1, kn⟩, kp⟩ := mem_kids.1 hk
      apply sum_congr rfl
      intro c hc
      rw [hl k k1 kn c (mem_range.1 hc), kp]
    rw [e3, e4]
    abel

/-- The accelerations meet the constraints up to what the rows of the universe say. -/
theorem pv_con (hpar : ParOk s.par s.n) (h : Slots s.par s.n own dim pind) (hK : PvAcc s P A own dim pind K0 KA L)
    {lam : ℕ → ℕ → K}
    (hl : ∀ i, 1 ≤ i → i < s.n → ∀ c < dim i, lam i c = lam (s.par i) (pind i + c))
    (hUT : ∀ i v f, (P.Um i v).dot f = v.dot (P.Tf i f)) (hA : ∀ i, 1 ≤ i → i < s.n → (A i).IsSymm)
    {u : ℕ → K} {lA : ℕ → ℕ → K}
    (hlA : ∀ i, 1 ≤ i → i < s.n → ∀ c < dim i, lA (s.par i) (pind i + c) = lA i c
      + (comb (P.S i) (s.jnv i) (fun k => ∑ l ∈ range (s.jnv i), pvDi s P A i k l
        * (u (s.iv i + l) - (P.c i).dot ((A i).mulMF (P.S i l)))) + P.c i).dot (KA i c))
    {a : ℕ → Motion K} {x : ℕ → K}
    (ha : ∀ i, 1 ≤ i → i < s.n →
      a i = P.c i + P.Um i (a (s.par i)) + comb (P.S i) (s.jnv i) (s.vs x i) ∧
      ∀ l < s.jnv i, x (s.iv i + l) = (∑ m ∈ range (s.jnv i), pvDi s P A i l m * u (s.iv i + m))
        - (P.c i + P.Um i (a (s.par i))).dot (pvUd s P A i l)
        - ∑ c ∈ range (dim i), lam i c * ∑ m ∈ range (s.jnv i), pvDi s P A i l m * (P.S i m).dot (KA i c)) :
    ∀ i < s.n, ∀ c < own i, lA i c + (a i).dot (K0 i c)
      = lA 0 (rootOff s.par pind i + c) + (a 0).dot (KA 0 (rootOff s.par pind i + c))
        - ∑ c' ∈ range (dim 0), L 0 (rootOff s.par pind i + c) c' * lam 0 c' := by
  have hzero : ∀ i < s.n, ∀ r < dim i, ∀ c < dim i,
      (¬ ∃ k, (1 ≤ k ∧ k < s.n) ∧ s.par k = i ∧ (pind k ≤ r ∧ r < pind k + dim k) ∧ pind k ≤ c ∧ c < pind k + dim k) →
      L i r c = 0 := by
    intro i hi r hr c hc hne
    by_contra e
    exact hne (hK.cross i hi r hr c hc e)
  have step : ∀ i, 1 ≤ i → i < s.n → ∀ c < dim i,
      lA (s.par i) (pind i + c) + (a (s.par i)).dot (KA (s.par i) (pind i + c))
        - ∑ c' ∈ range (dim (s.par i)), L (s.par i) (pind i + c) c' * lam (s.par i) c'
      = lA i c + (a i).dot (KA i c) - ∑ c' ∈ range (dim i), L i c c' * lam i c' := by
    intro i h1 hi c hc
    have hpi := hpar.2 i h1 hi
    have hpn : s.par i < s.n := by omega
    have hhi := h.hi i h1 hi
    have eL : ∑ c' ∈ range (dim (s.par i)), L (s.par i) (pind i + c) c' * lam (s.par i) c'
        = ∑ c' ∈ range (dim i), L i c c' * lam i c' + ∑ c' ∈ range (dim i), (∑ k ∈ range (s.jnv i),
          (P.S i k).dot (KA i c) * ∑ l ∈ range (s.jnv i), pvDi s P A i k l * (P.S i l).dot (KA i c')) * lam i c' := by
      rw [h.sum hpn, sum_eq_zero, zero_add, sum_eq_single_of_mem i (mem_kids.2 ⟨⟨h1, hi⟩, rfl⟩), ← sum_add_distrib]
      · apply sum_congr rfl
        intro c' hc'
        rw [hK.lup i h1 hi c hc c' (mem_range.1 hc'), ← hl i h1 hi c' (mem_range.1 hc')]
        ring
      · intro k hk hki
        obtain ⟨⟨k1, kn⟩, kp⟩ := mem_kids.1 hk
        apply sum_eq_zero
        intro c' hc'
        rw [mem_range] at hc'
        have hk' := h.hi k k1 kn
        rw [kp] at hk'
        rw [hzero _ hpn _ (by omega) _ (by omega), zero_mul]
        rintro ⟨m, ⟨m1, mn⟩, mp, ⟨a1, a2⟩, b1, b2⟩
        have e1 := h.uniq m1 mn h1 hi mp a1 a2 (by omega) (by omega)
        have e2 := h.uniq m1 mn k1 kn (mp.trans kp.symm) b1 b2 (by omega) (by omega)
        exact hki (e2.symm.trans e1)
      · intro c' hc'
        rw [mem_range] at hc'
        have := h.own_le _ hpn
        rw [hzero _ hpn _ (by omega) _ (by omega), zero_mul]
        rintro ⟨m, ⟨m1, mn⟩, mp, -, b1, -⟩
        have := h.lo m m1 mn
        rw [mp] at this
        omega
    obtain ⟨e1, e2⟩ := ha i h1 hi
    rw [eL, hlA i h1 hi c hc, hK.up i h1 hi c hc, ← hUT, e1]
    set a' := P.Um i (a (s.par i))
    rw [Motion.dot_sub, Motion.dot_sum, Motion.add_dot, Motion.add_dot, Motion.add_dot, dot_comb, dot_comb]
    have e3 : ∀ k ∈ range (s.jnv i), s.vs x i k * (P.S i k).dot (KA i c)
        = (∑ l ∈ range (s.jnv i), pvDi s P A i k l * (u (s.iv i + l) - (P.c i).dot ((A i).mulMF (P.S i l))))
            * (P.S i k).dot (KA i c)
          - a'.dot ((P.S i k).dot (KA i c) • pvUd s P A i k)
          - (P.S i k).dot (KA i c) * ∑ c' ∈ range (dim i), lam i c'
            * ∑ m ∈ range (s.jnv i), pvDi s P A i k m * (P.S i m).dot (KA i c') := by
      intro k hk
      have hk' := mem_range.1 hk
      change x (s.iv i + k) * _ = _
      rw [e2 k hk', Motion.dot_smul, Motion.add_dot]
      have e4 : (P.c i).dot (pvUd s P A i k)
          = ∑ l ∈ range (s.jnv i), pvDi s P A i k l * (P.c i).dot ((A i).mulMF (P.S i l)) := by
        unfold pvUd udCol
        rw [Motion.dot_sum]
        apply sum_congr rfl
        intro l hl'
        rw [Motion.dot_smul]
        unfold pvDi
        rw [invBlock_symm (fun i _ j _ => dMat_symm (hA _ h1 hi) i j) (mem_range.1 hl') hk']
      rw [e4]
      simp only [mul_sub, sum_sub_distrib]
      ring
    rw [sum_congr rfl e3, sum_sub_distrib, sum_sub_distrib]
    have e5 : ∑ k ∈ range (s.jnv i), (P.S i k).dot (KA i c) * ∑ c' ∈ range (dim i), lam i c'
          * ∑ m ∈ range (s.jnv i), pvDi s P A i k m * (P.S i m).dot (KA i c')
        = ∑ c' ∈ range (dim i), (∑ k ∈ range (s.jnv i),
          (P.S i k).dot (KA i c) * ∑ l ∈ range (s.jnv i), pvDi s P A i k l * (P.S i l).dot (KA i c')) * lam i c' := by
      simp only [mul_sum, sum_mul]
      rw [sum_comm]
      refine sum_congr rfl fun c' _ => sum_congr rfl fun k _ => sum_congr rfl fun l _ => by ring
    rw [e5]
    ring
  have all : ∀ k i, i ≤ k → i < s.n → ∀ c < dim i,
      lA 0 (rootOff s.par pind i + c) + (a 0).dot (KA 0 (rootOff s.par pind i + c))
        - ∑ c' ∈ range (dim 0), L 0 (rootOff s.par pind i + c) c' * lam 0 c'
      = lA i c + (a i).dot (KA i c) - ∑ c' ∈ range (dim i), L i c c' * lam i c' := by
    intro k
    induction k with
    | zero => intro i hi _ c _; obtain rfl : i = 0 := by omega
              rw [Slots.off_zero, zero_add]
    | succ k ih =>
      intro i hi hin c hc
      by_cases h1 : 1 ≤ i
      · have hpi := hpar.2 i h1 hin
        have := h.hi i h1 hin
        rw [Slots.off_step h1 hpi, add_assoc, ih (s.par i) (by omega) (by omega) (pind i + c) (by omega),
          step i h1 hin c hc]
      · obtain rfl : i = 0 := by omega
        rw [Slots.off_zero, zero_add]
  intro i hi c hc
  have hc' : c < dim i := by have := h.own_le i hi; omega
  rw [all i i le_rfl hi c hc', hK.own i hi c hc]
  have : ∑ c' ∈ range (dim i), L i c c' * lam i c' = 0 := by
    apply sum_eq_zero
    intro c' hcc
    rw [hzero i hi c hc' c' (mem_range.1 hcc), zero_mul]
    rintro ⟨m, ⟨m1, mn⟩, mp, ⟨b1, -⟩, -⟩
    have := h.lo m m1 mn
    rw [mp] at this
    omega
  rw [this, sub_zero]

/-- The dynamics: the accelerations are those of the system with the forces `-λ K0` of the constraints. -/
theorem pv_dyn (hp : s.Packed) (h : Slots s.par s.n own dim pind) (hK : PvAcc s P A own dim pind K0 KA L)
    {lam : ℕ → ℕ → K}
    (hl : ∀ i, 1 ≤ i → i < s.n → ∀ c < dim i, lam i c = lam (s.par i) (pind i + c))
    (hTf : ∀ i f g, P.Tf i (f + g) = P.Tf i f + P.Tf i g) (hTc : ∀ i (c : K) f, P.Tf i (c • f) = c • P.Tf i f)
    {t : ℕ → K} {I0 : ℕ → M6 K} {p g : ℕ → Force K}
    (hG : IsAcc s.par s.n (artT s P t) (fun i => (I0 i, p i)) (fun i => (A i, g i)))
    (hI0 : ∀ i, 1 ≤ i → i < s.n → (I0 i).IsSymm)
    (hTs : ∀ i, ∀ A : M6 K, A.IsSymm → (P.TM i A).IsSymm)
    (hTM : ∀ i, ∀ A : M6 K, A.IsSymm → ∀ v, (P.TM i A).mulMF v = P.Tf i (A.mulMF (P.Um i v)))
    (hUT : ∀ i v f, (P.Um i v).dot f = v.dot (P.Tf i f))
    (hD : ∀ i, 1 ≤ i → i < s.n → InvOk (s.jnv i) (dMat (P.S i) (seg s.arm (s.iv i)) (A i)))
    {a : ℕ → Motion K} {x : ℕ → K}
    (ha : ∀ i, 1 ≤ i → i < s.n →
      a i = P.c i + P.Um i (a (s.par i)) + comb (P.S i) (s.jnv i) (s.vs x i) ∧
      ∀ l < s.jnv i, x (s.iv i + l)
        = (∑ m ∈ range (s.jnv i), pvDi s P A i l m * (t (s.iv i + m) - (P.S i m).dot (g i)))
        - (P.c i + P.Um i (a (s.par i))).dot (pvUd s P A i l)
        - ∑ c ∈ range (dim i), lam i c * ∑ m ∈ range (s.jnv i), pvDi s P A i l m * (P.S i m).dot (KA i c))
    {w : ℕ → K} {V : ℕ → Motion K} (hV0 : V 0 = 0)
    (hV : ∀ i, 1 ≤ i → i < s.n → V i = comb (P.S i) (s.jnv i) (s.vs w i) + P.Um i (V (s.par i))) :
    s.dotv w t = (∑ i ∈ Ico 1 s.n, (V i).dot ((I0 i).mulMF (a i) + p i)) + s.dotv w (fun r => s.arm r * x r)
      + ∑ i ∈ Ico 1 s.n, ∑ c ∈ range (own i), lam i c * (V i).dot (K0 i c) := by
  have hG' := pv_acc h hK hl hTf hTc hG
  set G' : ℕ → M6 K × Force K := fun i => (A i, g i + ∑ c ∈ range (dim i), lam i c • KA i c) with hG'd
  obtain ⟨u, hu⟩ := hp.exists_seg (fun i l => t (s.iv i + l) - (P.S i l).dot (G' i).2)
  set st : AS K :=
    { Y := A
      f := fun i => (G' i).2
      u := u
      U := fun i k => (A i).mulMF (P.S i k)
      StU := fun i => dMat (P.S i) (seg s.arm (s.iv i)) (A i)
      Dinv := fun i => invBlock (s.jnv i) (dMat (P.S i) (seg s.arm (s.iv i)) (A i))
      UDinv := fun i => udCol (s.jnv i) (P.S i) (seg s.arm (s.iv i)) (A i) } with hst
  have hat : ∀ i, 1 ≤ i → i < s.n → ArtAt s P t i (G' i) st := fun i h1 hi => ⟨rfl, rfl, rfl, rfl, hu i h1 hi⟩
  have := aba_core (P := P) hp hG' hI0 hTs hTM hUT hTf hat hD (a := a) (x := x) (fun i h1 hi => by
    refine ⟨(ha i h1 hi).1, fun l hl' => ?_⟩
    rw [(ha i h1 hi).2 l hl', sub_right_comm]
    congr 1
    rw [sub_eq_iff_eq_add]
    have e : ∑ c ∈ range (dim i), lam i c * ∑ m ∈ range (s.jnv i), pvDi s P A i l m * (P.S i m).dot (KA i c)
        = ∑ m ∈ range (s.jnv i), pvDi s P A i l m * (P.S i m).dot (∑ c ∈ range (dim i), lam i c • KA i c) := by
      simp only [mul_sum, Motion.dot_sum, Motion.dot_smul]
      rw [sum_comm]
      exact sum_congr rfl fun m _ => sum_congr rfl fun c _ => by ring
    rw [e, ← sum_add_distrib]
    apply sum_congr rfl
    intro m hm
    change _ = pvDi s P A i l m * u (s.iv i + m) + _
    rw [hu i h1 hi m (mem_range.1 hm), hG'd]
    dsimp only
    rw [Motion.dot_add]
    ring) (w := w) (V := V) hV0 hV
  rw [this]
  have e : ∑ i ∈ Ico 1 s.n, (V i).dot ((I0 i).mulMF (a i) + (p i + ∑ c ∈ range (own i), lam i c • K0 i c))
      = (∑ i ∈ Ico 1 s.n, (V i).dot ((I0 i).mulMF (a i) + p i))
        + ∑ i ∈ Ico 1 s.n, ∑ c ∈ range (own i), lam i c * (V i).dot (K0 i c) := by
    rw [← sum_add_distrib]
    apply sum_congr rfl
    intro i _
    rw [← add_assoc, Motion.dot_add, Motion.dot_sum]
    congr 1
    exact sum_congr rfl fun c _ => by rw [Motion.dot_smul]
  rw [e]
  ring

/-- The matrix of the rows of the universe: its quadratic form is the energy of the motion that the forces cause. -/
theorem pv_root (hp : s.Packed) (h : Slots s.par s.n own dim pind) (hK : PvAcc s P A own dim pind K0 KA L)
    (hTf : ∀ i f g, P.Tf i (f + g) = P.Tf i f + P.Tf i g) (hTc : ∀ i (c : K) f, P.Tf i (c • f) = c • P.Tf i f)
    {I0 : ℕ → M6 K} (hA : IsAcc s.par s.n (artI s P) I0 A)
    (hI0 : ∀ i, 1 ≤ i → i < s.n → (I0 i).IsSymm)
    (hTs : ∀ i, ∀ A : M6 K, A.IsSymm → (P.TM i A).IsSymm)
    (hTM : ∀ i, ∀ A : M6 K, A.IsSymm → ∀ v, (P.TM i A).mulMF v = P.Tf i (A.mulMF (P.Um i v)))
    (hUT : ∀ i v f, (P.Um i v).dot f = v.dot (P.Tf i f))
    (hD : ∀ i, 1 ≤ i → i < s.n → InvOk (s.jnv i) (dMat (P.S i) (seg s.arm (s.iv i)) (A i)))
    (h0 : own 0 = 0) (lam : ℕ → K) :
    ∃ (a : ℕ → Motion K) (x : ℕ → K), a 0 = 0 ∧
      (∀ i, 1 ≤ i → i < s.n → a i = comb (P.S i) (s.jnv i) (s.vs x i) + P.Um i (a (s.par i))) ∧
      (∀ (w : ℕ → K) (V : ℕ → Motion K), V 0 = 0 →
        (∀ i, 1 ≤ i → i < s.n → V i = comb (P.S i) (s.jnv i) (s.vs w i) + P.Um i (V (s.par i))) →
        (∑ i ∈ Ico 1 s.n, (V i).dot ((I0 i).mulMF (a i))) + s.dotv w (fun r => s.arm r * x r)
          = -∑ i ∈ Ico 1 s.n, ∑ c ∈ range (own i), lam (rootOff s.par pind i + c) * (V i).dot (K0 i c)) ∧
      (∑ i ∈ Ico 1 s.n, (a i).dot ((I0 i).mulMF (a i))) + s.dotv x (fun r => s.arm r * x r)
        = ∑ r ∈ range (dim 0), lam r * ∑ c ∈ range (dim 0), L 0 r c * lam c := by
  set P' : AbaP K := { P with c := fun _ => 0 } with hP'
  have hK' : PvAcc s P' A own dim pind K0 KA L := ⟨hK.own, hK.up, hK.lup, hK.cross⟩
  set lm : ℕ → ℕ → K := fun i c => lam (rootOff s.par pind i + c) with hlm
  have hl : ∀ i, 1 ≤ i → i < s.n → ∀ c < dim i, lm i c = lm (s.par i) (pind i + c) := by
    intro i h1 hi c _
    rw [hlm]
    dsimp only
    rw [Slots.off_step h1 (hp.par.2 i h1 hi), add_assoc]
  have hT0 : ∀ i, P.Tf i 0 = 0 := fun i => by
    have := hTc i 0 0
    rwa [zero_smul, zero_smul] at this
  have hsym := artI_symm hp hA hI0 hTs
  have hG : IsAcc s.par s.n (artT s P' (fun _ => 0)) (fun i => (I0 i, (0 : Force K))) (fun i => (A i, (0 : Force K))) := by
    intro i h1 hi
    refine Prod.ext ?_ ?_
    · rw [Prod.fst_add, Prod.fst_sum]; exact hA i h1 hi
    · rw [Prod.snd_add, Prod.snd_sum]
      change (0 : Force K) = 0 + _
      rw [zero_add]
      symm
      apply sum_eq_zero
      intro k _
      change P.Tf k _ = 0
      rw [show ((0 : Force K) + ((artDown (s.jnv k) (P.S k) (seg s.arm (s.iv k)) (A k)).mulMF (0 : Motion K)
        + ∑ l ∈ range (s.jnv k), ((0 : K) - (P.S k l).dot 0) • udCol (s.jnv k) (P.S k) (seg s.arm (s.iv k)) (A k) l)) = 0 by
          rw [M6.mulMF_zero']
          simp [Motion.dot, V3.dot]]
      exact hT0 k
  obtain ⟨u, hu⟩ := hp.exists_seg (fun i l => -∑ c ∈ range (dim i), lm i c * (P.S i l).dot (KA i c))
  set st : AS K :=
    { Y := A
      f := fun _ => 0
      u := u
      U := fun i k => (A i).mulMF (P.S i k)
      StU := fun i => dMat (P.S i) (seg s.arm (s.iv i)) (A i)
      Dinv := fun i => invBlock (s.jnv i) (dMat (P.S i) (seg s.arm (s.iv i)) (A i))
      UDinv := fun i => udCol (s.jnv i) (P.S i) (seg s.arm (s.iv i)) (A i) } with hst
  obtain ⟨z, zz⟩ := absFwd_ok (P := P') hp st (c := fun _ => 0) (a0 := 0) (a := fun _ => 0) (q0 := fun _ => 0) rfl
    (fun _ _ _ => rfl)
  set r := fwd (absFwd s P' st) s.n ((fun _ => 0), fun _ => 0)
  have hx : ∀ i, 1 ≤ i → i < s.n →
      r.1 i = P'.c i + P'.Um i (r.1 (s.par i)) + comb (P'.S i) (s.jnv i) (s.vs r.2 i) ∧
      ∀ l < s.jnv i, r.2 (s.iv i + l)
        = (∑ m ∈ range (s.jnv i), pvDi s P' A i l m * ((0 : K) - (P'.S i m).dot 0))
        - (P'.c i + P'.Um i (r.1 (s.par i))).dot (pvUd s P' A i l)
        - ∑ c ∈ range (dim i), lm i c * ∑ m ∈ range (s.jnv i), pvDi s P' A i l m * (P'.S i m).dot (KA i c) := by
    intro i h1 hi
    refine ⟨(zz i h1 hi).1, fun l hl' => ?_⟩
    refine ((zz i h1 hi).2 l hl').trans ?_
    have e0 : ∑ m ∈ range (s.jnv i), pvDi s P' A i l m * ((0 : K) - (P'.S i m).dot 0) = 0 := by
      apply sum_eq_zero
      intro m _
      simp [Motion.dot, V3.dot]
    rw [e0, zero_sub, sub_eq_add_neg, add_comm, ← sub_neg_eq_add]
    congr 1
    rw [← sum_neg_distrib]
    change ∑ m ∈ range (s.jnv i), -(pvDi s P' A i l m * u (s.iv i + m)) = _
    rw [sum_congr rfl fun m hm => by rw [hu i h1 hi m (mem_range.1 hm), mul_neg, neg_neg]]
    simp only [mul_sum]
    rw [sum_comm]
    exact sum_congr rfl fun c _ => sum_congr rfl fun m _ => by ring
  have ha0 : ∀ i, 1 ≤ i → i < s.n → r.1 i = comb (P.S i) (s.jnv i) (s.vs r.2 i) + P.Um i (r.1 (s.par i)) := by
    intro i h1 hi
    rw [(hx i h1 hi).1]
    change (0 : Motion K) + _ + _ = _
    rw [zero_add, add_comm]
  have hdyn : ∀ (w : ℕ → K) (V : ℕ → Motion K), V 0 = 0 →
        (∀ i, 1 ≤ i → i < s.n → V i = comb (P.S i) (s.jnv i) (s.vs w i) + P.Um i (V (s.par i))) →
        (∑ i ∈ Ico 1 s.n, (V i).dot ((I0 i).mulMF (r.1 i))) + s.dotv w (fun k => s.arm k * r.2 k)
          = -∑ i ∈ Ico 1 s.n, ∑ c ∈ range (own i), lm i c * (V i).dot (K0 i c) := by
    intro w V V0 hV
    have := pv_dyn (P := P') hp h hK' hl hTf hTc hG hI0 hTs hTM hUT hD (a := r.1) (x := r.2) hx (w := w) (V := V) V0 hV
    simp only [add_zero] at this
    have e : s.dotv w (fun _ => (0 : K)) = 0 := by unfold Sys.dotv; exact sum_eq_zero fun _ _ => mul_zero _
    rw [e] at this
    linear_combination -this
  refine ⟨r.1, r.2, z, ha0, hdyn, ?_⟩
  rw [hdyn r.2 r.1 z ha0]
  have hcon := pv_con (P := P') hp.par h hK' (lam := lm) hl hUT hsym (u := fun _ => 0) (lA := fun _ _ => 0) (by
    intro i h1 hi c hc
    change (0 : K) = 0 + (comb (P.S i) (s.jnv i) (fun k => ∑ l ∈ range (s.jnv i), pvDi s P' A i k l
        * (0 - (0 : Motion K).dot ((A i).mulMF (P.S i l)))) + 0).dot (KA i c)
    have : (fun k => ∑ l ∈ range (s.jnv i), pvDi s P' A i k l * (0 - (0 : Motion K).dot ((A i).mulMF (P.S i l))))
        = fun _ => 0 := by
      funext k
      exact sum_eq_zero fun l _ => by simp [Motion.dot, V3.dot]
    rw [this, comb_zero]
    simp [Motion.dot, V3.dot]) (a := r.1) (x := r.2) (by
    intro i h1 hi
    refine ⟨(hx i h1 hi).1, fun l hl' => ((hx i h1 hi).2 l hl').trans ?_⟩
    congr 2
    exact sum_congr rfl fun m _ => by simp [Motion.dot, V3.dot])
  have hz : ∀ c, (r.1 0).dot (KA 0 c) = 0 := by
    intro c
    rw [z]
    simp [Motion.dot, V3.dot]
  rw [h.root_sum hp.par, range_eq_Ico, sum_eq_sum_Ico_succ_bot (by have := hp.par.1; omega : 0 < s.n), h0, range_zero,
    sum_empty, zero_add, ← sum_neg_distrib]
  apply sum_congr rfl
  intro i hi
  rw [mem_Ico] at hi
  rw [← sum_neg_distrib]
  apply sum_congr rfl
  intro c hc
  have := hcon i hi.2 c (mem_range.1 hc)
  rw [hz, zero_add, zero_add, zero_sub] at this
  rw [this, hlm]
  dsimp only
  rw [Slots.off_zero]
  simp only [zero_add]
  ring

end Pin
