import Verif.Algo.Constraint
import Verif.Algo.CholeskyLemmas
import Verif.Algo.JacobianLemmas
import Verif.Algo.KinDerLemmas

/-! # Lemmas on rigid constraint models -/

set_option linter.unusedSectionVars false

namespace Pin
open Finset
variable {K : Type*} [CommRing K] {s : Sys K}

/-! ## the sparsity vectors -/

theorem markCols_eq (i : ℕ) (sp : ℕ → Bool) (c : ℕ) :
    markCols s i sp c = (decide (s.iv i ≤ c ∧ c < s.iv i + s.jnv i) || sp c) := by
  unfold markCols
  apply upTo_ind (P := fun m (y : ℕ → Bool) => y c = (decide (s.iv i ≤ c ∧ c < s.iv i + m) || sp c))
  · have : ¬ (s.iv i ≤ c ∧ c < s.iv i + 0) := by omega
    simp [this]
  · intro k y _ ih
    by_cases e : c = s.iv i + k
    · subst e; rw [upd_self]; simp
    · rw [upd_ne _ _ e, ih]
      have : (s.iv i ≤ c ∧ c < s.iv i + k) ↔ (s.iv i ≤ c ∧ c < s.iv i + (k + 1)) := by omega
      simp only [this]

theorem markCols_at (h : s.Packed) {i : ℕ} (i1 : 1 ≤ i) (hi : i < s.n) (sp : ℕ → Bool) {a k : ℕ} (a1 : 1 ≤ a)
    (ha : a < s.n) (hk : k < s.jnv a) : markCols s i sp (s.iv a + k) = (decide (a = i) || sp (s.iv a + k)) := by
  rw [markCols_eq]
  congr 1
  rw [decide_eq_decide]
  constructor
  · rintro ⟨x, y⟩
    exact (h.inj a1 ha i1 hi hk (l := s.iv a + k - s.iv i) (by omega) (by omega)).1
  · rintro rfl; omega

/-- what the first loop of `init` computes -/
theorem spanLoop_spec (h : s.Packed) {j1 j2 : ℕ} (hj1 : j1 < s.n) (hj2 : j2 < s.n) : ∀ f c1 c2 sp1 sp2, c1 + c2 ≤ f →
    c1 < s.n → c2 < s.n →
    (∀ i, 1 ≤ i → (anc s.par i c1 ∧ anc s.par i c2 ↔ anc s.par i j1 ∧ anc s.par i j2)) →
    (∀ i, 1 ≤ i → anc s.par i c1 → anc s.par i j1) → (∀ i, 1 ≤ i → anc s.par i c2 → anc s.par i j2) →
    (∀ i k, 1 ≤ i → i < s.n → k < s.jnv i → (sp1 (s.iv i + k) = true ↔ anc s.par i j1 ∧ ¬ anc s.par i c1)) →
    (∀ i k, 1 ≤ i → i < s.n → k < s.jnv i → (sp2 (s.iv i + k) = true ↔ anc s.par i j2 ∧ ¬ anc s.par i c2)) →
    ((spanLoop s f c1 c2 sp1 sp2).1 < s.n ∧
     (∀ i, 1 ≤ i → (anc s.par i (spanLoop s f c1 c2 sp1 sp2).1 ↔ anc s.par i j1 ∧ anc s.par i j2)) ∧
     (∀ i k, 1 ≤ i → i < s.n → k < s.jnv i →
        ((spanLoop s f c1 c2 sp1 sp2).2.1 (s.iv i + k) = true ↔ anc s.par i j1 ∧ ¬ anc s.par i j2)) ∧
     (∀ i k, 1 ≤ i → i < s.n → k < s.jnv i →
        ((spanLoop s f c1 c2 sp1 sp2).2.2 (s.iv i + k) = true ↔ anc s.par i j2 ∧ ¬ anc s.par i j1))) := by
  have done : ∀ c (sp1 sp2 : ℕ → Bool), c < s.n →
      (∀ i, 1 ≤ i → (anc s.par i c ∧ anc s.par i c ↔ anc s.par i j1 ∧ anc s.par i j2)) →
      (∀ i k, 1 ≤ i → i < s.n → k < s.jnv i → (sp1 (s.iv i + k) = true ↔ anc s.par i j1 ∧ ¬ anc s.par i c)) →
      (∀ i k, 1 ≤ i → i < s.n → k < s.jnv i → (sp2 (s.iv i + k) = true ↔ anc s.par i j2 ∧ ¬ anc s.par i c)) →
      (c < s.n ∧ (∀ i, 1 ≤ i → (anc s.par i c ↔ anc s.par i j1 ∧ anc s.par i j2)) ∧
       (∀ i k, 1 ≤ i → i < s.n → k < s.jnv i → (sp1 (s.iv i + k) = true ↔ anc s.par i j1 ∧ ¬ anc s.par i j2)) ∧
       (∀ i k, 1 ≤ i → i < s.n → k < s.jnv i → (sp2 (s.iv i + k) = true ↔ anc s.par i j2 ∧ ¬ anc s.par i j1))) := by
    intro c sp1 sp2 hc h1 h2 h3
    refine ⟨hc, fun i i1 => by rw [← h1 i i1, and_self], fun i k i1 hi hk => ?_, fun i k i1 hi hk => ?_⟩
    · rw [h2 i k i1 hi hk]; have := h1 i i1; tauto
    · rw [h3 i k i1 hi hk]; have := h1 i i1; tauto
  intro f
  induction f with
  | zero =>
    intro c1 c2 sp1 sp2 hf hc1 hc2 a b1 b2 e1 e2
    have z1 : c1 = 0 := by omega
    have z2 : c2 = 0 := by omega
    subst z1 z2
    exact done 0 sp1 sp2 hc1 a e1 e2
  | succ f ih =>
    intro c1 c2 sp1 sp2 hf hc1 hc2 a b1 b2 e1 e2
    by_cases e : c1 = c2
    · subst e
      simp only [spanLoop, if_pos]
      exact done c1 sp1 sp2 hc1 a e1 e2
    · by_cases g : c1 > c2
      · have hs : spanLoop s (f + 1) c1 c2 sp1 sp2 = spanLoop s f (s.par c1) c2 (markCols s c1 sp1) sp2 := by
          simp only [spanLoop, if_neg e, if_pos g]
        have p := h.par.2 c1 (by omega) hc1
        have st : ∀ i, anc s.par i c1 ↔ i = c1 ∨ anc s.par i (s.par c1) := fun i => anc_step (by omega) p
        have nn : ¬ anc s.par c1 c2 := fun hh => by have := anc_le h.par _ hc2 hh; omega
        have nn' : ¬ anc s.par c1 (s.par c1) := fun hh => by have := anc_le h.par _ (by omega) hh; omega
        rw [hs]
        refine ih _ _ _ _ (by omega) (by omega) hc2 ?_ ?_ b2 ?_ e2
        · intro i i1
          rw [← a i i1, st i]
          constructor
          · rintro ⟨x, y⟩; exact ⟨Or.inr x, y⟩
          · rintro ⟨rfl | x, y⟩
            · exact absurd y nn
            · exact ⟨x, y⟩
        · intro i i1 x; exact b1 i i1 ((st i).2 (Or.inr x))
        · intro i k i1 hi hk
          rw [markCols_at h (by omega) hc1 sp1 i1 hi hk, Bool.or_eq_true, e1 i k i1 hi hk, decide_eq_true_eq, st i]
          constructor
          · rintro (rfl | ⟨x, y⟩)
            · exact ⟨b1 _ i1 ((st _).2 (Or.inl rfl)), nn'⟩
            · exact ⟨x, fun z => y (Or.inr z)⟩
          · rintro ⟨x, y⟩
            by_cases e' : i = c1
            · exact Or.inl e'
            · exact Or.inr ⟨x, fun z => z.elim e' y⟩
      · have hs : spanLoop s (f + 1) c1 c2 sp1 sp2 = spanLoop s f c1 (s.par c2) sp1 (markCols s c2 sp2) := by
          simp only [spanLoop, if_neg e, if_neg g]
        have p := h.par.2 c2 (by omega) hc2
        have st : ∀ i, anc s.par i c2 ↔ i = c2 ∨ anc s.par i (s.par c2) := fun i => anc_step (by omega) p
        have nn : ¬ anc s.par c2 c1 := fun hh => by have := anc_le h.par _ hc1 hh; omega
        have nn' : ¬ anc s.par c2 (s.par c2) := fun hh => by have := anc_le h.par _ (by omega) hh; omega
        rw [hs]
        refine ih _ _ _ _ (by omega) hc1 (by omega) ?_ b1 ?_ e1 ?_
        · intro i i1
          rw [← a i i1, st i]
          constructor
          · rintro ⟨x, y⟩; exact ⟨x, Or.inr y⟩
          · rintro ⟨x, rfl | y⟩
            · exact absurd x nn
            · exact ⟨x, y⟩
        · intro i i1 x; exact b2 i i1 ((st i).2 (Or.inr x))
        · intro i k i1 hi hk
          rw [markCols_at h (by omega) hc2 sp2 i1 hi hk, Bool.or_eq_true, e2 i k i1 hi hk, decide_eq_true_eq, st i]
          constructor
          · rintro (rfl | ⟨x, y⟩)
            · exact ⟨b2 _ i1 ((st _).2 (Or.inl rfl)), nn'⟩
            · exact ⟨x, fun z => y (Or.inr z)⟩
          · rintro ⟨x, y⟩
            by_cases e' : i = c2
            · exact Or.inl e'
            · exact Or.inr ⟨x, fun z => z.elim e' y⟩

/-- A constraint model as the constructors make it. -/
structure RCM.Ok (s : Sys K) (m : RCM K) : Prop where
  j1 : m.j1 < s.n
  j2 : m.j2 < s.n
  sp1 : ∀ i k, 1 ≤ i → i < s.n → k < s.jnv i →
    (m.sp1 (s.iv i + k) = true ↔ anc s.par i m.j1 ∧ (m.type = .CONTACT_3D ∨ ¬ anc s.par i m.j2))
  sp2 : ∀ i k, 1 ≤ i → i < s.n → k < s.jnv i →
    (m.sp2 (s.iv i + k) = true ↔ anc s.par i m.j2 ∧ (m.type = .CONTACT_3D ∨ ¬ anc s.par i m.j1))
  span : m.span = (List.range s.nv).filter (fun c => m.sp1 c || m.sp2 c)

theorem go_ok (h : s.Packed) {type : CType} {j1 j2 : ℕ} {P1 P2 : SE3 K} {rf : CFrame} (hj1 : j1 < s.n)
    (hj2 : j2 < s.n) : (RCM.make.go s type j1 P1 j2 P2 rf).Ok s := by
  obtain ⟨a, b, c, d⟩ := spanLoop_spec h hj1 hj2 (j1 + j2) j1 j2 (fun _ => false) (fun _ => false) le_rfl hj1 hj2
    (fun i _ => Iff.rfl) (fun i _ => id) (fun i _ => id) (fun i k _ _ _ => by simp) (fun i k _ _ _ => by simp)
  classical
  have e1 : ∀ i k, 1 ≤ i → i < s.n → k < s.jnv i → ((RCM.make.go s type j1 P1 j2 P2 rf).sp1 (s.iv i + k) = true ↔
      anc s.par i j1 ∧ (type = .CONTACT_3D ∨ ¬ anc s.par i j2)) := by
    intro i k i1 hi hk
    unfold RCM.make.go
    dsimp only
    split
    · rename_i ht
      rw [upLoop_cols h (fun y : (ℕ → Bool) × (ℕ → Bool) => y.1) (fun _ _ _ => true)
        (fun i i1 hi y k hk => by dsimp only; rw [markCols_at h i1 hi _ i1 hi hk]; simp)
        (fun i _ _ y c hc => by dsimp only; rw [markCols_eq]; simp [hc]) _ (by omega) a _ i k i1 hi hk]
      split
      · rename_i hh; have := (b i i1).1 hh; tauto
      · rename_i hh; rw [c i k i1 hi hk]; have := b i i1; tauto
    · rw [c i k i1 hi hk]; tauto
  have e2 : ∀ i k, 1 ≤ i → i < s.n → k < s.jnv i → ((RCM.make.go s type j1 P1 j2 P2 rf).sp2 (s.iv i + k) = true ↔
      anc s.par i j2 ∧ (type = .CONTACT_3D ∨ ¬ anc s.par i j1)) := by
    intro i k i1 hi hk
    unfold RCM.make.go
    dsimp only
    split
    · rename_i ht
      rw [upLoop_cols h (fun y : (ℕ → Bool) × (ℕ → Bool) => y.2) (fun _ _ _ => true)
        (fun i i1 hi y k hk => by dsimp only; rw [markCols_at h i1 hi _ i1 hi hk]; simp)
        (fun i _ _ y c hc => by dsimp only; rw [markCols_eq]; simp [hc]) _ (by omega) a _ i k i1 hi hk]
      split
      · rename_i hh; have := (b i i1).1 hh; tauto
      · rename_i hh; rw [d i k i1 hi hk]; have := b i i1; tauto
    · rw [d i k i1 hi hk]; tauto
  refine ⟨hj1, hj2, e1, e2, ?_⟩
  have key : ∀ (f : ℕ → Bool) n, upTo (fun c (l : List ℕ) => if f c then l ++ [c] else l) n [] = (List.range n).filter f := by
    intro f n
    apply upTo_ind (P := fun m (l : List ℕ) => l = (List.range m).filter f)
    · rfl
    · intro k l _ ih
      rw [List.range_succ, List.filter_append, ih]
      split <;> rename_i hh <;> simp [hh]
  exact key _ _

theorem make_ok (h : s.Packed) {type : CType} {j1 j2 : ℕ} {P1 P2 : SE3 K} {rf : RF} {m : RCM K} (hj1 : j1 < s.n)
    (hj2 : j2 < s.n) (hm : RCM.make s type j1 P1 j2 P2 rf = some m) :
    m.Ok s ∧ m.type = type ∧ m.j1 = j1 ∧ m.j2 = j2 ∧ m.P1 = P1 ∧ m.P2 = P2 ∧
      ((rf = .LOCAL ∧ m.rf = .LOCAL) ∨ (rf = .LOCAL_WORLD_ALIGNED ∧ m.rf = .LOCAL_WORLD_ALIGNED)) := by
  cases rf
  · simp [RCM.make] at hm
  · have : m = RCM.make.go s type j1 P1 j2 P2 .LOCAL := (Option.some.inj hm).symm
    subst this
    exact ⟨go_ok h hj1 hj2, rfl, rfl, rfl, rfl, rfl, Or.inl ⟨rfl, rfl⟩⟩
  · have : m = RCM.make.go s type j1 P1 j2 P2 .LOCAL_WORLD_ALIGNED := (Option.some.inj hm).symm
    subst this
    exact ⟨go_ok h hj1 hj2, rfl, rfl, rfl, rfl, rfl, Or.inr ⟨rfl, rfl⟩⟩

/-! ## the Jacobian -/

theorem jacobian_entry (m : RCM K) (d : Data K) (c : RCD K) (X : ℕ → ℕ → K) (r k : ℕ) :
    m.jacobian s d c X r k = if (k < s.nv ∧ (m.sp1 k || m.sp2 k) = true) ∧ r < m.type.dim then
      (m.jacCol c (cSign (m.sp1 k) (m.sp2 k)) (d.J k)).row r else X r k := by
  unfold RCM.jacobian
  apply upTo_ind (P := fun n (Y : ℕ → ℕ → K) => Y r k = if (k < n ∧ (m.sp1 k || m.sp2 k) = true) ∧ r < m.type.dim then
      (m.jacCol c (cSign (m.sp1 k) (m.sp2 k)) (d.J k)).row r else X r k)
  · rw [if_neg (by omega)]
  · intro n Y _ ih
    by_cases hb : (m.sp1 n || m.sp2 n) = true
    · rw [if_pos hb]
      unfold putCol
      by_cases e : k = n
      · subst e
        by_cases hr : r < m.type.dim
        · rw [if_pos ⟨rfl, hr⟩, if_pos ⟨⟨by omega, hb⟩, hr⟩]
        · rw [if_neg (by tauto), if_neg (by tauto), ih, if_neg (by tauto)]
      · rw [if_neg (by tauto), ih]
        have : k < n ↔ k < n + 1 := by omega
        simp only [this]
    · rw [if_neg hb, ih]
      by_cases e : k = n
      · subst e; rw [if_neg (by tauto), if_neg (by tauto)]
      · have : k < n ↔ k < n + 1 := by omega
        simp only [this]

theorem foldl_putCol (F : ℕ → Motion K) (n : ℕ) (X : ℕ → ℕ → K) (l : List ℕ) (r k : ℕ) :
    l.foldl (fun X jj => putCol X n jj (F jj)) X r k = if k ∈ l ∧ r < n then (F k).row r else X r k := by
  induction l generalizing X with
  | nil => simp
  | cons a l ih =>
    rw [List.foldl_cons, ih]
    unfold putCol
    by_cases hr : r < n
    · by_cases e : k = a
      · subst e; simp [hr]
      · simp [hr, e]
    · simp [hr]

theorem cSign_cases (a b : Bool) : (cSign a b = 0 ∧ a = b) ∨ (cSign a b = 1 ∧ a = true ∧ b = false) ∨
    (cSign a b = -1 ∧ a = false ∧ b = true) := by
  cases a <;> cases b <;> simp [cSign]

theorem getCol_eq (m : RCM K) (c : RCD K) (a b : Bool) (J : Motion K) :
    m.getCol c (cSign a b) J = m.jacCol c (cSign a b) J := by
  unfold RCM.getCol RCM.jacCol
  cases m.type <;> cases m.rf <;> try rfl
  rcases cSign_cases a b with ⟨e, -⟩ | ⟨e, -⟩ | ⟨e, -⟩ <;> rw [e]
  · simp
  · simp
  · have e1 : (-1 : ℤ) ≠ 0 := by decide
    have e2 : (-1 : ℤ) ≠ 1 := by decide
    simp only [if_neg e1, if_neg e2]
    ext <;> simp <;> ring

/-- the linear part only -/
def linPart : Motion K →ₗ[K] Motion K where
  toFun v := ⟨v.lin, 0⟩
  map_add' a b := by ext <;> simp
  map_smul' c a := by ext <;> simp

/-- the linear part, in other axes -/
def linRot (R : M3 K) : Motion K →ₗ[K] Motion K where
  toFun v := ⟨R.mulVec v.lin, 0⟩
  map_add' a b := by ext <;> simp [M3.mulVec_add]
  map_smul' c a := by ext <;> simp [M3.mulVec_smul]

/-- contribution of the first joint, as a function of its velocity in the world frame -/
def RCM.L1 (m : RCM K) (c : RCD K) : Motion K →ₗ[K] Motion K :=
  match m.type, m.rf with
  | .CONTACT_3D, .LOCAL => (linRot c.oMc1.rot.tr).comp (translateLin c.oMc1 .LOCAL_WORLD_ALIGNED)
  | .CONTACT_3D, .LOCAL_WORLD_ALIGNED => linPart.comp (translateLin c.oMc1 .LOCAL_WORLD_ALIGNED)
  | .CONTACT_6D, .LOCAL => translateLin c.oMc1 .LOCAL
  | .CONTACT_6D, .LOCAL_WORLD_ALIGNED => translateLin c.oMc1 .LOCAL_WORLD_ALIGNED

/-- contribution of the second joint -/
def RCM.L2 (m : RCM K) (c : RCD K) : Motion K →ₗ[K] Motion K :=
  match m.type, m.rf with
  | .CONTACT_3D, .LOCAL => (linRot c.oMc1.rot.tr).comp (translateLin c.oMc2 .LOCAL_WORLD_ALIGNED)
  | .CONTACT_3D, .LOCAL_WORLD_ALIGNED => linPart.comp (translateLin c.oMc2 .LOCAL_WORLD_ALIGNED)
  | .CONTACT_6D, .LOCAL => translateLin c.oMc1 .LOCAL
  | .CONTACT_6D, .LOCAL_WORLD_ALIGNED => translateLin c.oMc1 .LOCAL_WORLD_ALIGNED

/-- the placements of the constraint data are consistent -/
structure RCD.Ok (c : RCD K) : Prop where
  v2 : c.oMc2.Valid
  c12 : c.c1Mc2 = c.oMc1.actInvSE3 c.oMc2

theorem jacCol_eq (m : RCM K) {c : RCD K} (hc : c.Ok) (a b : Bool) (hab : m.type = .CONTACT_6D → a = true → b = true → False)
    (J : Motion K) (hn : a = true ∨ b = true) :
    m.jacCol c (cSign a b) J = (if a = true then m.L1 c J else 0) - (if b = true then m.L2 c J else 0) := by
  have hrot : ∀ x, c.c1Mc2.rot.mulVec (c.oMc2.rot.tr.mulVec x) = c.oMc1.rot.tr.mulVec x := by
    intro x
    rw [hc.c12]
    change (c.oMc1.rot.tr * c.oMc2.rot).mulVec _ = _
    rw [M3.mulVec_mulVec, M3.IsRot.mulVec_tr_mulVec hc.v2]
  have e1 : (-1 : ℤ) ≠ 0 := by decide
  have e2 : (-1 : ℤ) ≠ 1 := by decide
  have e3 : (1 : ℤ) ≠ 0 := by decide
  unfold RCM.jacCol RCM.L1 RCM.L2
  rcases cSign_cases a b with ⟨e, h1⟩ | ⟨e, h1, h2⟩ | ⟨e, h1, h2⟩ <;> rw [e]
  · subst h1
    have ha : a = true := by tauto
    subst ha
    cases ht : m.type <;> cases m.rf <;> simp only [if_true, if_pos]
    · change (⟨c.oMc1.rot.tr.mulVec (J.lin - c.oMc1.trans.cross J.ang)
        - c.c1Mc2.rot.mulVec (c.oMc2.rot.tr.mulVec (J.lin - c.oMc2.trans.cross J.ang)), 0⟩ : Motion K) = _
      rw [hrot]
      change _ = (⟨_, 0⟩ : Motion K) - ⟨_, 0⟩
      ext <;> simp [translateLin, translateCol]
    · change _ = (⟨_, 0⟩ : Motion K) - ⟨_, 0⟩
      ext <;> simp [translateLin, translateCol] <;> ring
    · exact (hab ht rfl rfl).elim
    · exact (hab ht rfl rfl).elim
  · subst h1 h2
    cases m.type <;> cases m.rf <;> simp only [if_neg e3, if_true, if_pos, Bool.false_eq_true, if_false, sub_zero]
    · rfl
    · change _ = (⟨_, 0⟩ : Motion K)
      ext <;> simp [translateLin, translateCol]
    · ext <;> simp [translateLin, translateCol]
    · ext <;> simp [translateLin, translateCol]
  · subst h1 h2
    cases m.type <;> cases m.rf <;> simp only [if_neg e1, if_neg e2, if_true, if_pos, Bool.false_eq_true, if_false, zero_sub]
    · change (⟨-(c.c1Mc2.rot.mulVec (c.oMc2.rot.tr.mulVec (J.lin - c.oMc2.trans.cross J.ang))), 0⟩ : Motion K) = _
      rw [hrot]
      change _ = -(⟨_, 0⟩ : Motion K)
      ext <;> simp [translateLin, translateCol]
    · change _ = -(⟨_, 0⟩ : Motion K)
      ext <;> simp [translateLin, translateCol]
    · ext <;> simp [translateLin, translateCol]
    · ext <;> simp [translateLin, translateCol]

theorem Motion.row_add (a b : Motion K) (r : ℕ) : (a + b).row r = a.row r + b.row r := by
  unfold Motion.row; split <;> simp
theorem Motion.row_sub (a b : Motion K) (r : ℕ) : (a - b).row r = a.row r - b.row r := by
  unfold Motion.row; split <;> simp
theorem Motion.row_smul (k : K) (a : Motion K) (r : ℕ) : (k • a).row r = k * a.row r := by
  unfold Motion.row; split <;> simp
theorem Motion.row_zero (r : ℕ) : (0 : Motion K).row r = 0 := by
  unfold Motion.row; split <;> simp
theorem Motion.row_sum {ι : Type*} (t : Finset ι) (f : ι → Motion K) (r : ℕ) :
    (∑ i ∈ t, f i).row r = ∑ i ∈ t, (f i).row r := by
  classical
  induction t using Finset.induction_on with
  | empty => rw [sum_empty, sum_empty, Motion.row_zero]
  | insert a t ha ih => rw [sum_insert ha, sum_insert ha, Motion.row_add, ih]

/-- the columns of the Jacobian of a constraint, from those of the two joints -/
theorem jacCol_at (h : s.Packed) {m : RCM K} (hm : m.Ok s) {c : RCD K} (hc : c.Ok) {i k : ℕ} (i1 : 1 ≤ i) (hi : i < s.n)
    (hk : k < s.jnv i) [Decidable (anc s.par i m.j1)] [Decidable (anc s.par i m.j2)] (J : Motion K) :
    (if (m.sp1 (s.iv i + k) || m.sp2 (s.iv i + k)) = true then
      m.jacCol c (cSign (m.sp1 (s.iv i + k)) (m.sp2 (s.iv i + k))) J else 0)
      = (if anc s.par i m.j1 then m.L1 c J else 0) - (if anc s.par i m.j2 then m.L2 c J else 0) := by
  have h1 := hm.sp1 i k i1 hi hk
  have h2 := hm.sp2 i k i1 hi hk
  by_cases hb : (m.sp1 (s.iv i + k) || m.sp2 (s.iv i + k)) = true
  · rw [if_pos hb, jacCol_eq m hc _ _ ?_ J (by simpa using hb)]
    · have hor : m.sp1 (s.iv i + k) = true ∨ m.sp2 (s.iv i + k) = true := by simpa using hb
      by_cases ht : m.type = .CONTACT_3D
      · have a1 : m.sp1 (s.iv i + k) = true ↔ anc s.par i m.j1 := by rw [h1]; tauto
        have a2 : m.sp2 (s.iv i + k) = true ↔ anc s.par i m.j2 := by rw [h2]; tauto
        simp only [a1, a2]
      · rcases hor with e | e
        · have x1 := h1.1 e
          have n2 : ¬ anc s.par i m.j2 := by tauto
          have x2 : ¬ m.sp2 (s.iv i + k) = true := by rw [h2]; tauto
          rw [if_pos e, if_pos x1.1, if_neg n2, if_neg x2]
        · have x1 := h2.1 e
          have n2 : ¬ anc s.par i m.j1 := by tauto
          have x2 : ¬ m.sp1 (s.iv i + k) = true := by rw [h1]; tauto
          rw [if_pos e, if_pos x1.1, if_neg n2, if_neg x2]
    · intro ht e1 e2
      have x1 := h1.1 e1
      have x2 := h2.1 e2
      rw [ht] at x1
      rcases x1.2 with z | z
      · cases z
      · exact z x2.1
  · have n1 : ¬ m.sp1 (s.iv i + k) = true := fun e => hb (by simp [e])
    have n2 : ¬ m.sp2 (s.iv i + k) = true := fun e => hb (by simp [e])
    rw [if_neg hb]
    by_cases ht : m.type = .CONTACT_3D
    · rw [if_neg (by rw [h1] at n1; tauto), if_neg (by rw [h2] at n2; tauto), sub_zero]
    · have ht6 : m.type = .CONTACT_6D := by
        cases hh : m.type with
        | CONTACT_3D => exact absurd hh ht
        | CONTACT_6D => rfl
      have hL : m.L1 c = m.L2 c := by unfold RCM.L1 RCM.L2; rw [ht6]; cases m.rf <;> rfl
      have : anc s.par i m.j1 ↔ anc s.par i m.j2 := by rw [h1] at n1; rw [h2] at n2; tauto
      rw [hL]
      by_cases x : anc s.par i m.j1
      · rw [if_pos x, if_pos (this.1 x), sub_self]
      · rw [if_neg x, if_neg (fun z => x (this.2 z)), sub_self]

/-- the Jacobian of a constraint times a joint velocity -/
theorem jacobian_mul (h : s.Packed) {q : ℕ → K} (hq : s.At q) {m : RCM K} (hm : m.Ok s) {c : RCD K} (hc : c.Ok) {d : Data K}
    (hJ : JOk s q s.n d.J) (v : ℕ → K) {r : ℕ} (hr : r < m.type.dim) :
    ∑ k ∈ range s.nv, m.jacobian s d c (fun _ _ => 0) r k * v k
      = (m.L1 c (s.oV q v m.j1) - m.L2 c (s.oV q v m.j2)).row r := by
  classical
  have e : ∀ k ∈ range s.nv, m.jacobian s d c (fun _ _ => 0) r k * v k
      = (v k • (if (m.sp1 k || m.sp2 k) = true then m.jacCol c (cSign (m.sp1 k) (m.sp2 k)) (d.J k) else 0)).row r := by
    intro k hk
    rw [mem_range] at hk
    rw [jacobian_entry, Motion.row_smul, mul_comm]
    congr 1
    by_cases hb : (m.sp1 k || m.sp2 k) = true
    · rw [if_pos ⟨⟨hk, hb⟩, hr⟩, if_pos hb]
    · rw [if_neg (by tauto), if_neg hb, Motion.row_zero]
  rw [sum_congr rfl e, ← Motion.row_sum]
  congr 1
  rw [← mul_support h hq hm.j1 (m.L1 c) (J := fun r => if ∃ i k, r = s.iv i + k ∧ (1 ≤ i ∧ i < s.n ∧ k < s.jnv i ∧ anc s.par i m.j1)
      then m.L1 c (d.J r) else 0) ?_ v,
    ← mul_support h hq hm.j2 (m.L2 c) (J := fun r => if ∃ i k, r = s.iv i + k ∧ (1 ≤ i ∧ i < s.n ∧ k < s.jnv i ∧ anc s.par i m.j2)
      then m.L2 c (d.J r) else 0) ?_ v, ← sum_sub_distrib]
  · apply sum_congr rfl
    intro r hr
    rw [mem_range] at hr
    obtain ⟨i, k, i1, hi, hk, rfl⟩ := h.cover hr
    have key : ∀ j, (∃ i' k', s.iv i + k = s.iv i' + k' ∧ (1 ≤ i' ∧ i' < s.n ∧ k' < s.jnv i' ∧ anc s.par i' j))
        ↔ anc s.par i j := by
      intro j
      constructor
      · rintro ⟨i', k', e, a, b, c', d'⟩
        have := (h.inj i1 hi a b hk c' e).1
        rw [this]; exact d'
      · intro ha; exact ⟨i, k, rfl, i1, hi, hk, ha⟩
    rw [jacCol_at h hm hc i1 hi hk, ← smul_sub]
    simp only [key]
  · intro i i1 hi k hk _
    have : (∃ i' k', s.iv i + k = s.iv i' + k' ∧ (1 ≤ i' ∧ i' < s.n ∧ k' < s.jnv i' ∧ anc s.par i' m.j2))
        ↔ anc s.par i m.j2 := by
      constructor
      · rintro ⟨i', k', e, a, b, c', d'⟩
        rw [(h.inj i1 hi a b hk c' e).1]; exact d'
      · intro ha; exact ⟨i, k, rfl, i1, hi, hk, ha⟩
    simp only [this, hJ i i1 hi k hk]
  · intro i i1 hi k hk _
    have : (∃ i' k', s.iv i + k = s.iv i' + k' ∧ (1 ≤ i' ∧ i' < s.n ∧ k' < s.jnv i' ∧ anc s.par i' m.j1))
        ↔ anc s.par i m.j1 := by
      constructor
      · rintro ⟨i', k', e, a, b, c', d'⟩
        rw [(h.inj i1 hi a b hk c' e).1]; exact d'
      · intro ha; exact ⟨i, k, rfl, i1, hi, hk, ha⟩
    simp only [this, hJ i i1 hi k hk]

/-- what `calc` stores -/
theorem calc_eq {m : RCM K} {d : Data K} {q : ℕ → K} (hpl : PlOk s q s.n d) (h1 : m.j1 < s.n) (h2 : m.j2 < s.n) :
    m.calc d = ⟨s.oM q m.j1 * m.P1, s.oM q m.j2 * m.P2, (s.oM q m.j1 * m.P1).actInvSE3 (s.oM q m.j2 * m.P2)⟩ := by
  have e : ∀ j (P : SE3 K), j < s.n → (if j > 0 then d.oMi j * P else P) = s.oM q j * P := by
    intro j P hj
    split
    · rename_i hp; rw [(hpl j hp hj).2.1]
    · have : j = 0 := by omega
      subst this
      rw [s.oM_zero, SE3.one_mul]
  unfold RCM.calc
  rw [e _ _ h1, e _ _ h2]

end Pin
