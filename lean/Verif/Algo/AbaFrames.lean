import Verif.Algo.AbaPd

/-! # Articulated inertias in joint frames and in the world frame -/

namespace Pin
open Finset
variable {K : Type*} [Field K] {s : Sys K}

theorem blockMat_congr {n : ℕ} {A B : ℕ → ℕ → K} (h : ∀ i < n, ∀ j < n, A i j = B i j) : blockMat n A = blockMat n B := by
  ext i j; exact h i i.2 j j.2

theorem invBlock_congr {n : ℕ} {A B : ℕ → ℕ → K} (h : ∀ i < n, ∀ j < n, A i j = B i j) : invBlock n A = invBlock n B := by
  unfold invBlock; rw [blockMat_congr h]

theorem InvOk.congr {n : ℕ} {A B : ℕ → ℕ → K} (h : ∀ i < n, ∀ j < n, A i j = B i j) : InvOk n A ↔ InvOk n B := by
  unfold InvOk; rw [blockMat_congr h]

/-- elimination of a joint commutes with a change of frame -/
theorem artDown_actOn {n : ℕ} {S T : ℕ → Motion K} {arm : ℕ → K} {A : M6 K} (hA : A.IsSymm) {M : SE3 K} (hM : M.Valid)
    (hT : ∀ k < n, T k = M.act (S k)) :
    (∀ i < n, ∀ j < n, dMat T arm (M.actOn A) i j = dMat S arm A i j) ∧
    artDown n T arm (M.actOn A) = M.actOn (artDown n S arm A) := by
  have hU : ∀ k < n, (M.actOn A).mulMF (T k) = M.actF (A.mulMF (S k)) := by
    intro k hk
    rw [SE3.actOn_mulMF _ hA, hT k hk, SE3.actInv_act hM]
  have hd : ∀ i < n, ∀ j < n, dMat T arm (M.actOn A) i j = dMat S arm A i j := by
    intro i hi j hj
    unfold dMat
    rw [hU j hj, hT i hi, SE3.dot_act_actF hM]
  refine ⟨hd, ?_⟩
  have hud : ∀ k < n, udCol n T arm (M.actOn A) k = M.actF (udCol n S arm A k) := by
    intro k hk
    unfold udCol
    rw [invBlock_congr hd, SE3.actF_sum]
    apply sum_congr rfl
    intro l hl
    rw [hU l (mem_range.1 hl), SE3.actF_smul]
  apply M6.ext_mulMF
  intro v
  rw [artDown_mulMF, SE3.actOn_mulMF _ (artDown_symm hA), SE3.actOn_mulMF _ hA, artDown_mulMF, SE3.actF_sub,
    SE3.actF_sum]
  congr 1
  apply sum_congr rfl
  intro k hk
  rw [hU k (mem_range.1 hk), hud k (mem_range.1 hk), SE3.actF_smul, SE3.dot_actInv]

theorem SE3.actOn_mul {A B : SE3 K} (hA : A.Valid) (hB : B.Valid) {X : M6 K} (hX : X.IsSymm) :
    (A * B).actOn X = A.actOn (B.actOn X) := by
  apply M6.ext_mulMF
  intro v
  rw [SE3.actOn_mulMF _ hX, SE3.actOn_mulMF _ (SE3.actOn_symm _ hX), SE3.actOn_mulMF _ hX, SE3.mul_actF, SE3.mul_actInv]
  all_goals assumption

theorem SE3.actOn_add_sum {ι : Type*} (M : SE3 K) {X : M6 K} (hX : X.IsSymm) (t : Finset ι) {g : ι → M6 K}
    (hg : ∀ i ∈ t, (g i).IsSymm) : M.actOn (X + ∑ i ∈ t, g i) = M.actOn X + ∑ i ∈ t, M.actOn (g i) := by
  apply M6.ext_mulMF
  intro v
  rw [SE3.actOn_mulMF _ (M6.isSymm_add hX (M6.isSymm_sum _ _ hg)), M6.add_mulMF, M6.sum_mulMF, M6.add_mulMF, M6.sum_mulMF,
    SE3.actF_add, SE3.actF_sum, SE3.actOn_mulMF _ hX]
  congr 1
  apply sum_congr rfl
  intro i hi
  rw [SE3.actOn_mulMF _ (hg i hi)]

/-- the articulated-body inertias of the subtrees, in the joint frames -/
def Sys.IsArt (s : Sys K) (q : ℕ → K) (A : ℕ → M6 K) : Prop :=
  IsAcc s.par s.n (fun c X => (s.X q c).actOn (artDown (s.jnv c) (s.S q c) (seg s.arm (s.iv c)) X))
    (fun i => (s.Y i).matrix) A

theorem Sys.IsArt.symm (h : s.Packed) {q : ℕ → K} {A : ℕ → M6 K} (hA : s.IsArt q A) :
    ∀ i, 1 ≤ i → i < s.n → (A i).IsSymm :=
  artI_symm (P := locP s q (fun _ => 0)) h hA (fun i _ _ => (s.Y i).matrix_symm) (fun i A hA => SE3.actOn_symm _ hA)

theorem Sys.IsArt.world (h : s.Packed) {q v : ℕ → K} (hq : s.At q) {A : ℕ → M6 K} (hA : s.IsArt q A)
    {J : ℕ → Motion K} (hJ : ∀ i, 1 ≤ i → i < s.n → ∀ l, l < s.jnv i → J (s.iv i + l) = s.Jc q i l) :
    IsAcc s.par s.n (artI s (worP s J q v)) (fun i => s.oI q i) (fun i => (s.oM q i).actOn (A i)) := by
  have hs := hA.symm h
  intro i h1 hi
  change (s.oM q i).actOn (A i) = _
  rw [hA i h1 hi, SE3.actOn_add_sum _ (Inertia.matrix_symm _) _ (fun c hc => by
    obtain ⟨⟨c1, cn⟩, cp⟩ := mem_kids.1 hc
    exact SE3.actOn_symm _ (artDown_symm (hs c c1 cn)))]
  congr 1
  · rw [SE3.actOn_matrix (s.oM_valid h.par hq i hi)]; rfl
  · apply sum_congr rfl
    intro c hc
    obtain ⟨⟨c1, cn⟩, cp⟩ := mem_kids.1 hc
    have hpc := h.par.2 c c1 cn
    have e : s.oM q c = s.oM q i * s.X q c := by rw [s.oM_step c1 hpc, cp]
    rw [← SE3.actOn_mul (s.oM_valid h.par hq i hi) (s.X_valid hq c1 cn) (artDown_symm (hs c c1 cn)), ← e]
    exact (artDown_actOn (hs c c1 cn) (s.oM_valid h.par hq c cn) (hJ c c1 cn)).2.symm

/-- every joint-space block of the articulated recursion is invertible -/
def Sys.Regular (s : Sys K) (q : ℕ → K) : Prop :=
  ∀ A, s.IsArt q A → ∀ i, 1 ≤ i → i < s.n → InvOk (s.jnv i) (dMat (s.S q i) (seg s.arm (s.iv i)) (A i))

theorem Sys.Regular.of_definite (h : s.Packed) {q : ℕ → K} (hd : s.MassDef q) : s.Regular q := fun _ hA =>
  art_regular_local (v := fun _ => 0) h hd hA

/-- the blocks that the local convention inverts -/
theorem local_blocks (h : s.Packed) {q v t : ℕ → K} {p : ℕ → Force K} {d : Data K} (hd : AL1 s q v p t s.n d) :
    (∃ A, s.IsArt q A ∧ ∀ i, 1 ≤ i → i < s.n → ((abaLocalRest s d).joints i).StU = dMat (s.S q i) (seg s.arm (s.iv i)) (A i)) ∧
    (s.Regular q ↔ ∀ i, 1 ≤ i → i < s.n → InvOk (s.jnv i) ((abaLocalRest s d).joints i).StU) := by
  obtain ⟨G, g1, g2⟩ := (abaLocalRest_ok h hd).1
  have hA : s.IsArt q (fun i => (G i).1) := artT_fst g1
  have e : ∀ i, 1 ≤ i → i < s.n → ((abaLocalRest s d).joints i).StU = dMat (s.S q i) (seg s.arm (s.iv i)) (G i).1 :=
    fun i h1 hi => (g2 i h1 hi).StU
  refine ⟨⟨_, hA, e⟩, fun hR i h1 hi => ?_, fun hI A hA' i h1 hi => ?_⟩
  · rw [e i h1 hi]; exact hR _ hA i h1 hi
  · rw [IsAcc.unique h.par hA' hA i h1 hi, ← e i h1 hi]; exact hI i h1 hi

/-- the blocks that the world convention inverts -/
theorem world_blocks (h : s.Packed) {q v t : ℕ → K} (hq : s.At q) {p : ℕ → Force K} {d : Data K} (hd : AW1 s q v p t s.n d) :
    (∃ A, s.IsArt q A ∧ ∀ i, 1 ≤ i → i < s.n → ∀ r < s.jnv i, ∀ c < s.jnv i,
      ((abaWorldRest s d).joints i).StU r c = dMat (s.S q i) (seg s.arm (s.iv i)) (A i) r c) ∧
    (s.Regular q ↔ ∀ i, 1 ≤ i → i < s.n → InvOk (s.jnv i) ((abaWorldRest s d).joints i).StU) := by
  obtain ⟨G, g1, g2⟩ := (abaWorldRest_ok h hq hd).1
  obtain ⟨A, hA⟩ := IsAcc.exists h.par (fun c X => (s.X q c).actOn (artDown (s.jnv c) (s.S q c) (seg s.arm (s.iv c)) X))
    (fun i => (s.Y i).matrix)
  have hA : s.IsArt q A := hA
  have hW := hA.world (v := v) h hq hd.J
  have e : ∀ i, 1 ≤ i → i < s.n → ∀ r < s.jnv i, ∀ c < s.jnv i,
      ((abaWorldRest s d).joints i).StU r c = dMat (s.S q i) (seg s.arm (s.iv i)) (A i) r c := by
    intro i h1 hi r hr c hc
    have := congrFun (congrFun (g2 i h1 hi).StU r) c
    have e2 := IsAcc.unique h.par (artT_fst g1) hW i h1 hi
    beta_reduce at e2
    rw [e2] at this
    refine Eq.trans this ?_
    exact (artDown_actOn (hA.symm h i h1 hi) (s.oM_valid h.par hq i hi) (hd.J i h1 hi)).1 r hr c hc
  refine ⟨⟨A, hA, e⟩, fun hR i h1 hi => ?_, fun hI B hB i h1 hi => ?_⟩
  · rw [InvOk.congr (e i h1 hi)]; exact hR _ hA i h1 hi
  · rw [IsAcc.unique h.par hB hA i h1 hi, ← InvOk.congr (e i h1 hi)]; exact hI i h1 hi

end Pin
