import Verif.Algo.PvDelassusInit

/-! # The accumulated inverse inertias -/

namespace Pin
open Finset Classical

/-! ## forces pulled up a tree -/

section pull
variable {K : Type*} [Field K]

/-- the force `f` on joint `j`, propagated to its ancestor `i` -/
def pull (par : ℕ → ℕ) (L : ℕ → Force K → Force K) (j i : ℕ) (f : Force K) : Force K :=
  if j = i then f else if _h : par j < j then pull par L (par j) i (L j f) else f
termination_by j

/-- the motion that the force `f` on joint `i` causes there, on the force `g` -/
def om (par : ℕ → ℕ) (L : ℕ → Force K → Force K) (kf : ℕ → Force K → Force K → K) (i : ℕ) (f g : Force K) : K :=
  if _h : par i < i then kf i f g + om par L kf (par i) (L i f) (L i g) else 0
termination_by i

variable {par : ℕ → ℕ} {n : ℕ} {L : ℕ → Force K → Force K} {kf : ℕ → Force K → Force K → K}

theorem pull_self (j : ℕ) (f : Force K) : pull par L j j f = f := by unfold pull; rw [if_pos rfl]

theorem pull_step {j i : ℕ} (hne : j ≠ i) (hlt : par j < j) (f : Force K) :
    pull par L j i f = pull par L (par j) i (L j f) := by
  rw [pull, if_neg hne, dif_pos hlt]

theorem om_zero (f g : Force K) : om par L kf 0 f g = 0 := by
  rw [om, dif_neg (by omega)]

theorem om_step {i : ℕ} (hlt : par i < i) (f g : Force K) :
    om par L kf i f g = kf i f g + om par L kf (par i) (L i f) (L i g) := by
  rw [om, dif_pos hlt]

theorem pull_up (hp : ParOk par n) {i : ℕ} (h1 : 1 ≤ i) : ∀ j, j < n → anc par i j → ∀ f : Force K,
    pull par L j (par i) f = L i (pull par L j i f) := by
  intro j
  induction j using Nat.strong_induction_on with
  | _ j ih =>
    intro jn ha f
    have hle := anc_le hp j jn ha
    have hlt := hp.2 j (by omega) jn
    have hli := hp.2 i h1 (by omega)
    by_cases e : i = j
    · subst e
      rw [pull_step (by omega) hli, pull_self, pull_self]
    · rw [pull_step (by omega) hlt, pull_step (Ne.symm e) hlt]
      exact ih _ hlt (by omega) (anc_up hp (by omega) jn ha e) _

theorem pull_trans (hp : ParOk par n) {i a : ℕ} (hi : anc par i a) (an : a < n) : ∀ j, j < n → anc par a j → ∀ f : Force K,
    pull par L a i (pull par L j a f) = pull par L j i f := by
  intro j
  induction j using Nat.strong_induction_on with
  | _ j ih =>
    intro jn ha f
    have hle := anc_le hp j jn ha
    have hia := anc_le hp a an hi
    by_cases e : a = j
    · subst e; rw [pull_self]
    · have hlt := hp.2 j (by omega) jn
      rw [pull_step (j := j) (i := a) (Ne.symm e) hlt, pull_step (j := j) (i := i) (by omega) hlt]
      exact ih _ hlt (by omega) (anc_up hp (by omega) jn ha e) _

theorem pull_lin (hL : ∀ i (c : ℕ → K) (f : ℕ → Force K), L i (∑ m ∈ range 6, c m • f m) = ∑ m ∈ range 6, c m • L i (f m))
    (c : ℕ → K) (i : ℕ) : ∀ j (f : ℕ → Force K),
    pull par L j i (∑ m ∈ range 6, c m • f m) = ∑ m ∈ range 6, c m • pull par L j i (f m) := by
  intro j
  induction j using Nat.strong_induction_on with
  | _ j ih =>
    intro f
    by_cases e : j = i
    · subst e; simp only [pull_self]
    · by_cases hlt : par j < j
      · rw [pull_step e hlt, hL, ih _ hlt]
        exact sum_congr rfl fun m _ => by rw [pull_step e hlt]
      · have : ∀ g : Force K, pull par L j i g = g := fun g => by rw [pull, if_neg e, dif_neg hlt]
        simp only [this]

theorem om_lin_left (hL : ∀ i (c : ℕ → K) (f : ℕ → Force K), L i (∑ m ∈ range 6, c m • f m) = ∑ m ∈ range 6, c m • L i (f m))
    (hk : ∀ i (c : ℕ → K) (f : ℕ → Force K) g, kf i (∑ m ∈ range 6, c m • f m) g = ∑ m ∈ range 6, c m * kf i (f m) g)
    (c : ℕ → K) : ∀ i (f : ℕ → Force K) (g : Force K),
    om par L kf i (∑ m ∈ range 6, c m • f m) g = ∑ m ∈ range 6, c m * om par L kf i (f m) g := by
  intro i
  induction i using Nat.strong_induction_on with
  | _ i ih =>
    intro f g
    by_cases hlt : par i < i
    · rw [om_step hlt, hk, hL, ih _ hlt, ← sum_add_distrib]
      exact sum_congr rfl fun m _ => by rw [om_step hlt, mul_add]
    · have : ∀ f g : Force K, om par L kf i f g = 0 := fun f g => by rw [om, dif_neg hlt]
      simp [this]

theorem om_lin_right (hL : ∀ i (c : ℕ → K) (f : ℕ → Force K), L i (∑ m ∈ range 6, c m • f m) = ∑ m ∈ range 6, c m • L i (f m))
    (hk : ∀ i (c : ℕ → K) (f : ℕ → Force K) g, kf i g (∑ m ∈ range 6, c m • f m) = ∑ m ∈ range 6, c m * kf i g (f m))
    (c : ℕ → K) : ∀ i (f : ℕ → Force K) (g : Force K),
    om par L kf i g (∑ m ∈ range 6, c m • f m) = ∑ m ∈ range 6, c m * om par L kf i g (f m) := by
  intro i
  induction i using Nat.strong_induction_on with
  | _ i ih =>
    intro f g
    by_cases hlt : par i < i
    · rw [om_step hlt, hk, hL, ih _ hlt, ← sum_add_distrib]
      exact sum_congr rfl fun m _ => by rw [om_step hlt, mul_add]
    · have : ∀ f g : Force K, om par L kf i f g = 0 := fun f g => by rw [om, dif_neg hlt]
      simp [this]

theorem Force.sum_units (f : Force K) : (∑ m ∈ range 6, f.row m • (1 : M6 K).rowF m) = f := by
  ext <;> simp [sum_range_succ, Force.row, M6.rowF, M3.col]

/-- the maps that the algorithm applies are linear -/
structure Lin (L : ℕ → Force K → Force K) (kf : ℕ → Force K → Force K → K) : Prop where
  l : ∀ i (c : ℕ → K) (f : ℕ → Force K), L i (∑ m ∈ range 6, c m • f m) = ∑ m ∈ range 6, c m • L i (f m)
  left : ∀ i (c : ℕ → K) (f : ℕ → Force K) g, kf i (∑ m ∈ range 6, c m • f m) g = ∑ m ∈ range 6, c m * kf i (f m) g
  right : ∀ i (c : ℕ → K) (f : ℕ → Force K) g, kf i g (∑ m ∈ range 6, c m • f m) = ∑ m ∈ range 6, c m * kf i g (f m)

theorem bil_om (hl : Lin L kf) {A : ℕ → ℕ → K} {i : ℕ}
    (hA : ∀ m < 6, ∀ k < 6, A m k = om par L kf i ((1 : M6 K).rowF m) ((1 : M6 K).rowF k)) (f g : Force K) :
    bil A f g = om par L kf i f g := by
  conv_rhs => rw [← f.sum_units, ← g.sum_units]
  rw [om_lin_left hl.l hl.left]
  unfold bil
  apply sum_congr rfl
  intro m hm
  rw [om_lin_right hl.l hl.right, mul_sum]
  apply sum_congr rfl
  intro k hk
  rw [hA m (mem_range.1 hm) k (mem_range.1 hk)]
  ring

end pull

section field
variable {K : Type*} [Field K] {s : Sys K}

/-- `oK[i]` between two forces -/
def kForm (s : Sys K) (J : ℕ → Motion K) (A : ℕ → M6 K) (i : ℕ) (f g : Force K) : K :=
  ∑ k ∈ range (s.jnv i), ∑ l ∈ range (s.jnv i), (seg J (s.iv i) k).dot f
    * invBlock (s.jnv i) (dMat (seg J (s.iv i)) (seg s.arm (s.iv i)) (A i)) k l * (seg J (s.iv i) l).dot g
/-- the transpose of `oL[i]` -/
def lMap (s : Sys K) (J : ℕ → Motion K) (A : ℕ → M6 K) (i : ℕ) (f : Force K) : Force K := (lOp s J A i).tr.mulFF f

theorem kForm_eq (J : ℕ → Motion K) (A : ℕ → M6 K) (i : ℕ) (f g : Force K) :
    ((kOp s J A i).mulFM f).dot g = kForm s J A i f g := by
  rw [kOp_mulFM, Motion.sum_dot]
  unfold kForm sdCol
  apply sum_congr rfl
  intro k _
  rw [Motion.smul_dot, Motion.sum_dot, mul_sum]
  exact sum_congr rfl fun l _ => by rw [Motion.smul_dot]; ring

theorem lin_ok (s : Sys K) (J : ℕ → Motion K) (A : ℕ → M6 K) : Lin (lMap s J A) (kForm s J A) := by
  refine ⟨fun i c f => ?_, fun i c f g => ?_, fun i c f g => ?_⟩
  · apply Motion.dot_ext
    intro v
    unfold lMap
    rw [M6.dot_tr_mulFF, Motion.dot_sum, Motion.dot_sum]
    exact sum_congr rfl fun m _ => by rw [Motion.dot_smul, Motion.dot_smul, M6.dot_tr_mulFF]
  · unfold kForm
    simp only [Motion.dot_sum, Motion.dot_smul, sum_mul, mul_sum]
    rw [sum_congr rfl fun k _ => sum_comm, sum_comm]
    exact sum_congr rfl fun m _ => sum_congr rfl fun k _ => sum_congr rfl fun l _ => by ring
  · unfold kForm
    simp only [Motion.dot_sum, Motion.dot_smul, mul_sum]
    rw [sum_congr rfl fun k _ => sum_comm, sum_comm]
    exact sum_congr rfl fun m _ => sum_congr rfl fun k _ => sum_congr rfl fun l _ => by ring

/-! ## the response -/

theorem Resp.pull (h : s.Packed) {q : ℕ → K} {J : ℕ → Motion K} {I0 A : ℕ → M6 K} {j : ℕ} {g : Force K}
    {pf : ℕ → Force K} {x : ℕ → K} (hr : Resp s q J I0 A j g pf x) (jn : j < s.n) :
    ∀ i, 1 ≤ i → anc s.par i j → pf i = Pin.pull s.par (lMap s J A) j i g := by
  have key : ∀ m i, j - i ≤ m → 1 ≤ i → anc s.par i j → pf i = Pin.pull s.par (lMap s J A) j i g := by
    intro m
    induction m with
    | zero =>
      intro i hm h1 ha
      have := anc_le h.par _ jn ha
      obtain rfl : i = j := by omega
      rw [pull_self, hr.force _ h1 jn, if_pos rfl, sum_eq_zero, add_zero]
      intro b hb
      obtain ⟨⟨b1, bn⟩, bp⟩ := mem_kids.1 hb
      have hlt := h.par.2 b b1 bn
      rw [hr.off h jn b b1 bn]
      · ext <;> simp [M6.mulFF]
      · intro hab
        have := anc_le h.par _ jn hab
        omega
    | succ m ih =>
      intro i hm h1 ha
      have hle := anc_le h.par _ jn ha
      by_cases e : i = j
      · exact ih i (by omega) h1 ha
      · obtain ⟨b, hb, ba⟩ := (anc_kid h.par h1 _ jn ha).resolve_left (Ne.symm e)
        obtain ⟨⟨b1, bn⟩, rfl⟩ := mem_kids.1 hb
        have hlt := h.par.2 b b1 bn
        rw [hr.force _ h1 (by omega), if_neg e, zero_add, sum_eq_single_of_mem b hb, ih b (by omega) b1 ba,
          pull_up h.par b1 j jn ba]
        · rfl
        · intro d hd hne
          obtain ⟨⟨d1, dn⟩, dp⟩ := mem_kids.1 hd
          rw [hr.off h jn d d1 dn]
          · ext <;> simp [M6.mulFF]
          · intro had
            exact hne (kids_disjoint h.par (by omega) hd hb jn had ba)
  exact fun i => key _ i le_rfl

theorem Resp.om (h : s.Packed) {q : ℕ → K} {J : ℕ → Motion K} {I0 A : ℕ → M6 K} {j : ℕ} {g : Force K}
    {pf : ℕ → Force K} {x : ℕ → K} (hr : Resp s q J I0 A j g pf x) (jn : j < s.n) :
    ∀ i, anc s.par i j → ∀ f,
      (s.oV q x i).dot f = Pin.om s.par (lMap s J A) (kForm s J A) i (Pin.pull s.par (lMap s J A) j i g) f := by
  intro i
  induction i using Nat.strong_induction_on with
  | _ i ih =>
    intro ha f
    rcases Nat.eq_zero_or_pos i with rfl | h1
    · rw [om_zero, s.oV_zero, Motion.zero_dot]
    · have hin : i < s.n := by have := anc_le h.par _ jn ha; omega
      have hlt := h.par.2 i h1 hin
      rw [hr.step i h1 hin, om_step hlt, hr.pull h jn i h1 ha, ← pull_up (L := lMap s J A) h.par h1 j jn ha,
        ← ih _ hlt (anc_trans h.par (anc_par h.par h1 hin) _ jn ha), Motion.add_dot, kForm_eq, add_comm]
      unfold lMap
      rw [M6.dot_tr_mulFF]

/-- the motion of a joint `j'` is that of the greatest common ancestor, propagated -/
theorem Resp.down (h : s.Packed) {q : ℕ → K} {J : ℕ → Motion K} {I0 A : ℕ → M6 K} {j j' : ℕ} {g : Force K}
    {pf : ℕ → Force K} {x : ℕ → K} (hr : Resp s q J I0 A j g pf x) (jn : j < s.n) (jn' : j' < s.n) {a : ℕ}
    (hg : ∀ b, 1 ≤ b → anc s.par b j → anc s.par b j' → anc s.par b a) (han : a < s.n) :
    ∀ i, anc s.par a i → anc s.par i j' → ∀ f,
      (s.oV q x i).dot f = (s.oV q x a).dot (Pin.pull s.par (lMap s J A) i a f) := by
  intro i
  induction i using Nat.strong_induction_on with
  | _ i ih =>
    intro ha hij f
    by_cases e : a = i
    · subst e; rw [pull_self]
    · have hin : i < s.n := by have := anc_le h.par _ jn' hij; omega
      have hle := anc_le h.par _ hin ha
      have hlt := h.par.2 i (by omega) hin
      rw [pull_step (Ne.symm e) hlt, ← ih _ hlt (anc_up h.par (by omega) hin ha e)
        (anc_trans h.par (anc_par h.par (by omega) hin) _ jn' hij), hr.step i (by omega) hin, hr.off h jn i (by omega) hin]
      · have z : (kOp s J A i).mulFM 0 = 0 := by ext <;> simp [M6.mulFM]
        rw [z, add_zero]
        unfold lMap
        rw [M6.dot_tr_mulFF]
      · intro hb
        have := anc_le h.par _ han (hg i (by omega) hb hij)
        omega

/-- the entry of two contacts -/
theorem Resp.entry (h : s.Packed) {q : ℕ → K} {J : ℕ → Motion K} {I0 A : ℕ → M6 K} {j j' : ℕ} {g : Force K}
    {pf : ℕ → Force K} {x : ℕ → K} (hr : Resp s q J I0 A j g pf x) (jn : j < s.n) (jn' : j' < s.n) {a : ℕ}
    (ha : anc s.par a j) (ha' : anc s.par a j')
    (hg : ∀ b, 1 ≤ b → anc s.par b j → anc s.par b j' → anc s.par b a) (f : Force K) :
    (s.oV q x j').dot f = Pin.om s.par (lMap s J A) (kForm s J A) a (Pin.pull s.par (lMap s J A) j a g)
      (Pin.pull s.par (lMap s J A) j' a f) := by
  have han : a < s.n := by have := anc_le h.par _ jn ha; omega
  rw [hr.down h jn jn' hg han j' ha' (anc_refl h.par jn'), hr.om h jn a ha]

/-! ## the backward pass of the inertias, step by step -/

/-- the state of `osimBwd` when the joints from `k` on have been visited -/
structure OsimInv (s : Sys K) (J : ℕ → Motion K) (I0 A : ℕ → M6 K) (k : ℕ) (x : OData K) : Prop where
  cols : x.data.J = J
  acc : ∃ G, PAcc s.par s.n (artI s (minP s J)) I0 k G ∧ ∀ i, 1 ≤ i → i < s.n → i < k → x.data.oYaba i = G i

theorem osim_step (h : s.Packed) {J : ℕ → Motion K} {I0 A : ℕ → M6 K} (hA : IsAcc s.par s.n (artI s (minP s J)) I0 A)
    {i : ℕ} (h1 : 1 ≤ i) (hi : i < s.n) {x : OData K} (hx : OsimInv s J I0 A (i + 1) x) :
    OsimInv s J I0 A i (osimBwd s i x) ∧ (osimBwd s i x).oL i = lOp s J A i ∧
    ((osimBwd s i x).data.joints i).Dinv
      = invBlock (s.jnv i) (dMat (seg J (s.iv i)) (seg s.arm (s.iv i)) (A i)) := by
  obtain ⟨a, G, g1, g2⟩ := hx
  have hpi := h.par.2 i h1 hi
  have hGi : G i = A i := g1.eq_acc h.par hA i h1 hi le_rfl
  have hYi : x.data.oYaba i = A i := by rw [g2 i h1 hi (by omega), hGi]
  refine ⟨⟨?_, ?_⟩, ?_, ?_⟩
  · rw [← a]; unfold osimBwd; split <;> rfl
  · refine ⟨if s.par i > 0 then upd G (s.par i) (G (s.par i) + artI s (minP s J) i (G i)) else G, ?_, ?_⟩
    · apply PAcc.step h.par h1 hi g1
      intro j hj
      by_cases hpos : s.par i > 0
      · simp only [hpos, if_true]
        by_cases hj' : j = s.par i
        · subst hj'; rw [upd_self]; simp
        · rw [upd_ne _ _ hj']; simp [hj']
      · have : j ≠ s.par i := by omega
        simp [hpos, this]
    · intro j hj1 hj hji
      unfold osimBwd
      by_cases hpos : s.par i > 0
      · simp only [hpos, if_true]
        by_cases hj' : j = s.par i
        · subst hj'
          rw [upd_self, upd_self, g2 _ hj1 hj (by omega), hYi, a, hGi, add_sub_assoc]
          rfl
        · rw [upd_ne _ _ hj', upd_ne _ _ hj', g2 _ hj1 hj (by omega)]
      · simp only [hpos, if_false]
        exact g2 _ hj1 hj (by omega)
  · unfold osimBwd
    split <;> (dsimp only; rw [upd_self, hYi, a]; rfl)
  · unfold osimBwd
    split <;> (dsimp only; rw [upd_self, hYi, a]; rfl)

end field
end Pin
