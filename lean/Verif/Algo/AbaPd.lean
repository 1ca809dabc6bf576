import Verif.Algo.AbaLemmas
import Mathlib.LinearAlgebra.Matrix.ToLinearEquiv

/-! # The blocks inverted by ABA are regular when the mass matrix is definite -/

namespace Pin
open Finset

theorem IsAcc.exists {α : Type*} [AddCommMonoid α] {par : ℕ → ℕ} {n : ℕ} (hp : ParOk par n) (T : ℕ → α → α)
    (F : ℕ → α) : ∃ f, IsAcc par n T F f := by
  refine ⟨bwd (fun i f => upd f (par i) (f (par i) + T i (f i))) n F, ?_⟩
  apply PAcc.done
  apply bwd_ind (P := fun k (f : ℕ → α) => PAcc par n T F k f) hp.1
  · exact PAcc.start _ _ _ _
  · intro i f h1 hi ih
    refine ih.step hp h1 hi (fun j hj => ?_)
    by_cases e : j = par i
    · subst e; rw [upd_self, if_pos rfl]
    · rw [upd_ne _ _ e, if_neg e]

variable {K : Type*} [Field K] {s : Sys K} {P : AbaP K}

/-- what joint `c` hands over to its parent, inertia part -/
def artI (s : Sys K) (P : AbaP K) (c : ℕ) (X : M6 K) : M6 K :=
  P.TM c (artDown (s.jnv c) (P.S c) (seg s.arm (s.iv c)) X)

theorem artT_fst {t : ℕ → K} {I0 : ℕ → M6 K} {p : ℕ → Force K} {G : ℕ → M6 K × Force K}
    (h : IsAcc s.par s.n (artT s P t) (fun i => (I0 i, p i)) G) :
    IsAcc s.par s.n (artI s P) I0 (fun i => (G i).1) := by
  intro i h1 hi
  change (G i).1 = _
  rw [h i h1 hi, Prod.fst_add, Prod.fst_sum]
  rfl

theorem artI_symm (h : s.Packed) {I0 A : ℕ → M6 K} (hA : IsAcc s.par s.n (artI s P) I0 A)
    (hI0 : ∀ i, 1 ≤ i → i < s.n → (I0 i).IsSymm)
    (hTs : ∀ i, ∀ A : M6 K, A.IsSymm → (P.TM i A).IsSymm) : ∀ i, 1 ≤ i → i < s.n → (A i).IsSymm := by
  have key : ∀ k i, 1 ≤ i → i < s.n → s.n - i ≤ k → (A i).IsSymm := by
    intro k
    induction k with
    | zero => intro i _ hi hk; omega
    | succ k ih =>
      intro i h1 hi hk
      rw [hA i h1 hi]
      apply M6.isSymm_add (hI0 i h1 hi)
      apply M6.isSymm_sum
      intro c hc
      obtain ⟨⟨c1, cn⟩, cp⟩ := mem_kids.1 hc
      have := h.par.2 c c1 cn
      exact hTs _ _ (artDown_symm (ih c c1 cn (by omega)))
  intro i h1 hi
  exact key _ i h1 hi le_rfl

theorem dMat_quad (n : ℕ) (S : ℕ → Motion K) (arm : ℕ → K) (I : M6 K) (x : ℕ → K) :
    ∑ k ∈ range n, x k * ((S k).dot (I.mulMF (comb S n x)) + arm k * x k)
      = ∑ k ∈ range n, x k * ∑ l ∈ range n, dMat S arm I k l * x l := by
  apply sum_congr rfl
  intro k hk
  congr 1
  rw [M6.mulMF_comb, Motion.dot_sum]
  unfold dMat
  simp only [add_mul, sum_add_distrib, Motion.dot_smul, ite_mul, zero_mul]
  rw [Finset.sum_ite_eq (range n) k, if_pos hk]
  congr 1
  exact sum_congr rfl fun l _ => mul_comm _ _

/-- a block whose quadratic form is definite is regular -/
theorem invOk_of_definite {n : ℕ} {D : ℕ → ℕ → K}
    (h : ∀ x : ℕ → K, ∑ k ∈ range n, x k * ∑ l ∈ range n, D k l * x l = 0 → ∀ k < n, x k = 0) : InvOk n D := by
  intro hdet
  obtain ⟨v, hv, hm⟩ := Matrix.exists_mulVec_eq_zero_iff.2 hdet
  apply hv
  have := h (fun k => if hk : k < n then v ⟨k, hk⟩ else 0) (by
    apply sum_eq_zero
    intro k hk
    rw [mem_range] at hk
    rw [sum_range_fin]
    have := congrFun hm ⟨k, hk⟩
    simp only [Matrix.mulVec, dotProduct, blockMat, Matrix.of_apply, Pi.zero_apply] at this
    rw [sum_congr rfl (g := fun x : Fin n => D k x * v x) (fun x _ => by rw [dif_pos x.2]), this, mul_zero])
  funext k
  have := this k k.2
  rw [dif_pos k.2] at this
  exact this

/-- A motion that starts with `x` at joint `i` and lets the joints after `i` move freely stores the energy
`x^T StU x`. -/
theorem art_energy (h : s.Packed) {I0 A : ℕ → M6 K} (hA : IsAcc s.par s.n (artI s P) I0 A)
    (hI0 : ∀ i, 1 ≤ i → i < s.n → (I0 i).IsSymm)
    (hTs : ∀ i, ∀ A : M6 K, A.IsSymm → (P.TM i A).IsSymm)
    (hTM : ∀ i, ∀ A : M6 K, A.IsSymm → ∀ v, (P.TM i A).mulMF v = P.Tf i (A.mulMF (P.Um i v)))
    (hUT : ∀ i v f, (P.Um i v).dot f = v.dot (P.Tf i f)) (hU0 : ∀ i, P.Um i 0 = 0)
    {i : ℕ} (h1 : 1 ≤ i) (hi : i < s.n)
    (hD : ∀ j, i < j → j < s.n → InvOk (s.jnv j) (dMat (P.S j) (seg s.arm (s.iv j)) (A j))) (x : ℕ → K) :
    ∃ (w : ℕ → K) (V : ℕ → Motion K), V 0 = 0 ∧
      (∀ i, 1 ≤ i → i < s.n → V i = comb (P.S i) (s.jnv i) (s.vs w i) + P.Um i (V (s.par i))) ∧
      (∀ k < s.jnv i, w (s.iv i + k) = x k) ∧
      (∑ j ∈ Ico 1 s.n, (V j).dot ((I0 j).mulMF (V j))) + s.dotv w (fun r => s.arm r * w r)
        = ∑ k ∈ range (s.jnv i), x k * ∑ l ∈ range (s.jnv i), dMat (P.S i) (seg s.arm (s.iv i)) (A i) k l * x l := by
  classical
  have hsym := artI_symm h hA hI0 hTs
  -- the motion
  let st : AS K :=
    { Y := fun _ => 0, f := fun _ => 0, U := fun _ _ => 0, StU := fun _ _ _ => 0
      u := fun r => if s.iv i ≤ r ∧ r < s.iv i + s.jnv i then x (r - s.iv i) else 0
      Dinv := fun _ k l => if k = l then 1 else 0
      UDinv := fun j l => if i < j then udCol (s.jnv j) (P.S j) (seg s.arm (s.iv j)) (A j) l else 0 }
  obtain ⟨z, zz⟩ := absFwd_ok (P := P) h st (c := fun _ => 0) (a0 := 0) (a := fun _ => 0) (q0 := fun _ => 0) rfl
    (fun _ _ _ => rfl)
  set r := fwd (absFwd s P st) s.n ((fun _ => 0), (fun _ => 0)) with hr
  have hV : ∀ j, 1 ≤ j → j < s.n → r.1 j = comb (P.S j) (s.jnv j) (s.vs r.2 j) + P.Um j (r.1 (s.par j)) := by
    intro j j1 jn
    rw [(zz j j1 jn).1]; abel
  have hw : ∀ j, 1 ≤ j → j < s.n → ∀ l < s.jnv j, r.2 (s.iv j + l)
      = (if j = i then x l else 0) - (P.Um j (r.1 (s.par j))).dot (st.UDinv j l) := by
    intro j j1 jn l hl
    rw [(zz j j1 jn).2 l hl, zero_add]
    congr 1
    rw [sum_eq_single_of_mem l (mem_range.2 hl) (fun m _ hne => by
      change (if l = m then (1 : K) else 0) * _ = 0
      rw [if_neg (Ne.symm hne), zero_mul])]
    change (if l = l then (1 : K) else 0) * (if s.iv i ≤ s.iv j + l ∧ s.iv j + l < s.iv i + s.jnv i then _ else 0) = _
    rw [if_pos rfl, one_mul]
    by_cases e : j = i
    · subst e
      rw [if_pos ⟨by omega, by omega⟩, if_pos rfl]
      congr 1; omega
    · rw [if_neg, if_neg e]
      rintro ⟨a, b⟩
      exact e (h.inj j1 jn h1 hi hl (show s.iv j + l - s.iv i < s.jnv i by omega) (by omega)).1
  have hwle : ∀ j, 1 ≤ j → j ≤ i → ∀ l < s.jnv j, r.2 (s.iv j + l) = if j = i then x l else 0 := by
    intro j j1 ji l hl
    rw [hw j j1 (by omega) l hl]
    change _ - (P.Um j _).dot (if i < j then _ else 0) = _
    rw [if_neg (show ¬ i < j by omega), Motion.dot_zero, sub_zero]
  have hVlt : ∀ j, j < i → r.1 j = 0 := by
    intro j
    induction j using Nat.strong_induction_on with
    | _ j ih =>
      intro hj
      by_cases j0 : j = 0
      · subst j0; exact z
      · have hpj := h.par.2 j (by omega) (by omega)
        rw [hV j (by omega) (by omega), ih _ hpj (by omega), hU0, add_zero]
        apply sum_eq_zero
        intro l hl
        change r.2 (s.iv j + l) • _ = _
        rw [hwle j (by omega) (by omega) l (mem_range.1 hl), if_neg (by omega), zero_smul]
  have hpi := h.par.2 i h1 hi
  have hVi : r.1 i = comb (P.S i) (s.jnv i) x := by
    rw [hV i h1 hi, hVlt _ hpi, hU0, add_zero]
    exact comb_congr (fun _ _ => rfl) (fun k hk => by
      change r.2 (s.iv i + k) = _
      rw [hwle i h1 le_rfl k hk, if_pos rfl])
  -- free joints
  have hfree : ∀ j, i < j → j < s.n →
      (∀ k < s.jnv j, (P.S j k).dot ((A j).mulMF (r.1 j)) + s.arm (s.iv j + k) * r.2 (s.iv j + k) = 0) ∧
      (A j).mulMF (r.1 j) = (artDown (s.jnv j) (P.S j) (seg s.arm (s.iv j)) (A j)).mulMF (P.Um j (r.1 (s.par j))) := by
    intro j hij hjn
    have := art_joint (hsym j (by omega) hjn) (hD j hij hjn) 0 (fun _ => 0) (P.Um j (r.1 (s.par j))) (x := s.vs r.2 j)
      (fun k hk => by
        change r.2 (s.iv j + k) = _
        rw [hw j (by omega) hjn k hk, if_neg (by omega)]
        change 0 - (P.Um j _).dot (if i < j then _ else 0) = _
        rw [if_pos hij]
        simp)
    rw [add_comm (P.Um j _), ← hV j (by omega) hjn] at this
    simpa [Sys.vs, seg] using this
  -- forces
  obtain ⟨f, hf⟩ := IsAcc.exists h.par P.Tf (fun j => (I0 j).mulMF (r.1 j))
  have hfG : ∀ k j, i ≤ j → j < s.n → s.n - j ≤ k → f j = (A j).mulMF (r.1 j) := by
    intro k
    induction k with
    | zero => intro j _ hj hk; omega
    | succ k ih =>
      intro j hij hj hk
      rw [hf j (by omega) hj, hA j (by omega) hj, M6.add_mulMF, M6.sum_mulMF]
      congr 1
      apply sum_congr rfl
      intro c hc
      obtain ⟨⟨c1, cn⟩, cp⟩ := mem_kids.1 hc
      have := h.par.2 c c1 cn
      rw [ih c (by omega) cn (by omega), (hfree c (by omega) cn).2, cp]
      unfold artI
      rw [hTM c _ (artDown_symm (hsym c c1 cn))]
  have hdual := tree_duality h.par dotHom P.Um P.Tf (fun i v f => by simpa using hUT i v f) z
    (s := fun j => comb (P.S j) (s.jnv j) (s.vs r.2 j)) (V := r.1) hV hf
  simp only [dotHom_apply] at hdual
  refine ⟨r.2, r.1, z, hV, fun k hk => by rw [hwle i h1 le_rfl k hk, if_pos rfl], ?_⟩
  rw [← hdual]
  unfold Sys.dotv
  rw [← h.sum_seg, ← sum_add_distrib, sum_eq_single_of_mem i (mem_Ico.2 ⟨h1, hi⟩)]
  · rw [dot_comb, ← sum_add_distrib, hfG _ i le_rfl hi le_rfl, ← dMat_quad]
    apply sum_congr rfl
    intro k hk
    have e : r.2 (s.iv i + k) = x k := by rw [hwle i h1 le_rfl k (mem_range.1 hk), if_pos rfl]
    simp only [seg, Sys.vs, hVi, e]
    ring
  · intro j hj hne
    rw [mem_Ico] at hj
    rw [dot_comb, ← sum_add_distrib]
    apply sum_eq_zero
    intro k hk
    change r.2 (s.iv j + k) * _ + _ = _
    by_cases hij : j < i
    · rw [hwle j hj.1 (by omega) k (mem_range.1 hk), if_neg hne]; ring
    · rw [hfG _ j (by omega) hj.2 le_rfl]
      have := (hfree j (by omega) hj.2).1 k (mem_range.1 hk)
      linear_combination r.2 (s.iv j + k) * this

theorem art_regular (h : s.Packed) {I0 A : ℕ → M6 K} (hA : IsAcc s.par s.n (artI s P) I0 A)
    (hI0 : ∀ i, 1 ≤ i → i < s.n → (I0 i).IsSymm)
    (hTs : ∀ i, ∀ A : M6 K, A.IsSymm → (P.TM i A).IsSymm)
    (hTM : ∀ i, ∀ A : M6 K, A.IsSymm → ∀ v, (P.TM i A).mulMF v = P.Tf i (A.mulMF (P.Um i v)))
    (hUT : ∀ i v f, (P.Um i v).dot f = v.dot (P.Tf i f)) (hU0 : ∀ i, P.Um i 0 = 0)
    (hdef : ∀ (w : ℕ → K) (V : ℕ → Motion K), V 0 = 0 →
      (∀ i, 1 ≤ i → i < s.n → V i = comb (P.S i) (s.jnv i) (s.vs w i) + P.Um i (V (s.par i))) →
      (∑ j ∈ Ico 1 s.n, (V j).dot ((I0 j).mulMF (V j))) + s.dotv w (fun r => s.arm r * w r) = 0 →
      ∀ r < s.nv, w r = 0) :
    ∀ i, 1 ≤ i → i < s.n → InvOk (s.jnv i) (dMat (P.S i) (seg s.arm (s.iv i)) (A i)) := by
  have key : ∀ k i, 1 ≤ i → i < s.n → s.n - i ≤ k →
      InvOk (s.jnv i) (dMat (P.S i) (seg s.arm (s.iv i)) (A i)) := by
    intro k
    induction k with
    | zero => intro i _ hi hk; omega
    | succ k ih =>
      intro i h1 hi hk
      apply invOk_of_definite
      intro x hx k' hk'
      obtain ⟨w, V, V0, hV, hwx, e⟩ := art_energy h hA hI0 hTs hTM hUT hU0 h1 hi
        (fun j hij hj => ih j (by omega) hj (by omega)) x
      rw [hx] at e
      rw [← hwx k' hk']
      have := h.le_nv h1 hi
      exact hdef w V V0 hV e _ (by omega)
  intro i h1 hi
  exact key _ i h1 hi le_rfl

/-- the mass matrix is definite: no joint velocity but zero has zero energy -/
def Sys.MassDef (s : Sys K) (q : ℕ → K) : Prop := ∀ w, s.massForm q w w = 0 → ∀ r < s.nv, w r = 0

theorem art_regular_local (h : s.Packed) {q v : ℕ → K} (hdef : s.MassDef q) {A : ℕ → M6 K}
    (hA : IsAcc s.par s.n (artI s (locP s q v)) (fun i => (s.Y i).matrix) A) :
    ∀ i, 1 ≤ i → i < s.n → InvOk (s.jnv i) (dMat (s.S q i) (seg s.arm (s.iv i)) (A i)) := by
  refine art_regular (P := locP s q v) h hA (fun i _ _ => (s.Y i).matrix_symm) (fun i A hA => SE3.actOn_symm _ hA)
    (fun i A hA v => SE3.actOn_mulMF _ hA v) (fun i v f => SE3.dot_actInv _ _ _) (fun i => SE3.actInv_zero _) ?_
  intro w V V0 hV e
  apply hdef w
  have hVV : ∀ i, i < s.n → V i = s.V q w i := by
    intro i hi; refine Sys.joint_ind s h.par ?_ ?_ i hi <;> clear hi i
    · rw [V0, s.V_zero]
    · intro i h1 hi ih
      rw [hV i h1 hi, ih, s.V_step h1 (h.par.2 i h1 hi)]; rfl
  rw [← e]
  unfold Sys.massForm
  congr 1
  apply sum_congr rfl
  intro i hi
  rw [mem_Ico] at hi
  rw [hVV i hi.2, Inertia.matrix_mulMF]

theorem art_regular_world (h : s.Packed) {q v : ℕ → K} (hq : s.At q) (hdef : s.MassDef q) {J : ℕ → Motion K}
    (hJ : ∀ i, 1 ≤ i → i < s.n → ∀ l, l < s.jnv i → J (s.iv i + l) = s.Jc q i l) {A : ℕ → M6 K}
    (hA : IsAcc s.par s.n (artI s (worP s J q v)) (fun i => s.oI q i) A) :
    ∀ i, 1 ≤ i → i < s.n → InvOk (s.jnv i) (dMat (seg J (s.iv i)) (seg s.arm (s.iv i)) (A i)) := by
  refine art_regular (P := worP s J q v) h hA (fun i _ _ => s.oI_symm q i) (fun i A hA => hA)
    (fun i A hA v => rfl) (fun i v f => rfl) (fun i => rfl) ?_
  intro w V V0 hV e
  apply hdef w
  have hVV : ∀ i, i < s.n → V i = s.oV q w i := by
    intro i hi; refine Sys.joint_ind s h.par ?_ ?_ i hi <;> clear hi i
    · rw [V0, s.oV_zero]
    · intro i h1 hi ih
      rw [hV i h1 hi, ih, s.oV_step h.par hq w h1 hi]
      unfold Sys.jvel
      rw [act_comb]
      congr 1
      unfold comb
      apply sum_congr rfl
      intro l hl
      change _ • J (s.iv i + l) = _
      rw [hJ i h1 hi l (mem_range.1 hl)]; rfl
  rw [← e]
  unfold Sys.massForm
  congr 1
  apply sum_congr rfl
  intro i hi
  rw [mem_Ico] at hi
  rw [hVV i hi.2, s.dot_mul_world h.par hq w w hi.2]

end Pin
