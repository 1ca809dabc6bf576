import Verif.Algo.CoriolisLemmas
import Verif.Props.Jacobian
import Verif.Props.Dynamics

/-!
# C18: Coriolis matrix

`computeCoriolisMatrix` differentiates the world columns of the joints as if the motion subspaces were constant in
the joint frames (`dJ = ov × J`). The two relations the documentation gives are then exact up to the terms in `Ṡ`:
both are stated with that term, and then for joints with constant motion subspaces.

Entries between different branches are never written; `data.C` is created with zeros, hence `BranchZero d.C`.
-/

namespace Pin
open Finset DualNumber TrivSqZeroExt
universe u

section ring
variable {K : Type u} [CommRing K] {s : Sys K}

/-- sum, along the support of `b`, of `v_i × (S_i w)` in the world frame -/
noncomputable def Sys.dV (s : Sys K) (q v w : ℕ → K) (b : ℕ) : Motion K :=
  ∑ i ∈ supp s.par s.n b, (s.oV q v i).cross ((s.oM q i).act (s.jvel q w i))

theorem Sys.dV_step (hp : ParOk s.par s.n) (q v w : ℕ → K) {i : ℕ} (h1 : 1 ≤ i) (hi : i < s.n) :
    s.dV q v w i = (s.oV q v i).cross ((s.oM q i).act (s.jvel q w i)) + s.dV q v w (s.par i) := by
  unfold Sys.dV
  rw [supp_step hp h1 hi, sum_insert (not_mem_supp_par hp h1 hi)]

/-- with constant motion subspaces, derivative of the velocity of a body under a constant joint velocity `w` -/
theorem Sys.V_snd' {sε : Sys K[ε]} {q v dq : ℕ → K} (h : s.Along sε q v dq) (hp : ParOk s.par s.n) (hq : s.At q)
    (hS : ∀ i, 1 ≤ i → i < s.n → ∀ k, k < s.jnv i → (sε.S (perturb q dq) i k).map snd = 0)
    (w : ℕ → K) : ∀ i, i < s.n →
    (s.oM q i).act ((sε.V (perturb q dq) (perturb w (fun _ => 0)) i).map snd + (s.V q v i).cross (s.V q w i))
      = s.dV q v w i := by
  intro i hi; refine joint_ind s hp ?_ ?_ i hi <;> clear hi i
  · rw [V_zero, V_zero, V_zero]
    unfold Sys.dV
    rw [supp_zero, sum_empty]
    have : ((0 : Motion K[ε]).map snd : Motion K) = 0 := by ext <;> simp [Motion.map, V3.map]
    rw [this]; simp
  · intro i h1 hi ih
    have hpi := hp.2 i h1 hi
    have hX := s.X_valid hq h1 hi
    have hop := s.oM_valid hp hq (s.par i) (by omega)
    have hoi := s.oM_valid hp hq i hi
    have ej : (sε.jvel (perturb q dq) (perturb w (fun _ => 0)) i).map snd = 0 := by
      unfold jvel comb
      rw [map_snd_sum, h.jnv]
      apply sum_eq_zero
      intro k hk
      rw [map_snd_smul, hS i h1 hi k (mem_range.1 hk)]
      unfold vs seg
      rw [snd_perturb]
      simp
    rw [Sys.dV_step hp q v w h1 hi, ← ih, sε.V_step h1 (by rw [h.par]; exact hpi), map_snd_add, ej,
      (X_moves h hq h1 hi).snd_actInv hX, h.par, V_fst h hp hq w _ _ (by omega)]
    have eo : ∀ m, (s.oM q (s.par i)).act m = (s.oM q i).act ((s.X q i).actInv m) := by
      intro m
      rw [s.oM_step h1 hpi, SE3.mul_act hop, SE3.act_actInv hX]
    rw [eo]
    unfold Sys.oV
    rw [← Motion.act_cross hoi, ← SE3.act_add, SE3.actInv_add, Motion.actInv_cross hX, s.V_step h1 hpi,
      s.V_step (w := w) h1 hpi]
    congr 1
    generalize s.jvel q v i = a
    generalize s.jvel q w i = b
    generalize (s.X q i).actInv (s.V q v (s.par i)) = c
    generalize (s.X q i).actInv (s.V q w (s.par i)) = e
    generalize (s.X q i).actInv ((sε.V (perturb q dq) (perturb w fun _ => 0) (s.par i)).map snd) = f
    ext <;> simp [Motion.cross] <;> ring

/-- coordinates of the velocity of a body -/
theorem oV_coord (h : s.Packed) {q : ℕ → K} (hq : s.At q) (w : ℕ → K) {b : ℕ} (hb : b < s.n) :
    s.oV q w b = ∑ r ∈ range s.nv, w r • s.oV q (Sys.unit r) b := by
  classical
  rw [sum_support h (J := fun r => s.oV q (Sys.unit r) b) (G := fun i k => s.Jc q i k) (j := b) (by
    intro i h1 hi k hk _
    exact Sys.oV_unit h hq h1 hi hk hb), Sys.oV_eq h.par hq w b hb]
  exact sum_congr rfl fun i _ => (comb_Jc q w i).symm

theorem dV_unit (h : s.Packed) {q v : ℕ → K} {i k : ℕ} (hi1 : 1 ≤ i) (hi : i < s.n) (hk : k < s.jnv i) {b : ℕ}
    [Decidable (anc s.par i b)] :
    s.dV q v (Sys.unit (s.iv i + k)) b = if anc s.par i b then (s.oV q v i).cross (s.Jc q i k) else 0 := by
  unfold Sys.dV
  have hz : ∀ j, 1 ≤ j → j < s.n → j ≠ i →
      (s.oV q v j).cross ((s.oM q j).act (s.jvel q (Sys.unit (s.iv i + k)) j)) = 0 := by
    intro j j1 jn hji
    rw [Sys.jvel_unit h q hi1 hi hk j1 jn, if_neg hji]
    ext <;> simp [Motion.cross]
  split
  · rename_i ha
    rw [sum_eq_single i]
    · rw [Sys.jvel_unit h q hi1 hi hk hi1 hi, if_pos rfl]; rfl
    · intro j hj hji
      obtain ⟨⟨j1, jn⟩, -⟩ := mem_supp.1 hj
      exact hz j j1 jn hji
    · intro hn; exact absurd (mem_supp.2 ⟨⟨hi1, hi⟩, ha⟩) hn
  · rename_i ha
    apply sum_eq_zero
    intro j hj
    obtain ⟨⟨j1, jn⟩, hja⟩ := mem_supp.1 hj
    exact hz j j1 jn (by rintro rfl; exact ha hja)

theorem dV_coord (h : s.Packed) {q v : ℕ → K} (w : ℕ → K) (b : ℕ) :
    s.dV q v w b = ∑ r ∈ range s.nv, w r • s.dV q v (Sys.unit r) b := by
  classical
  rw [sum_support h (J := fun r => s.dV q v (Sys.unit r) b) (G := fun i k => (s.oV q v i).cross (s.Jc q i k)) (j := b) (by
    intro i h1 hi k hk _
    exact dV_unit h h1 hi hk)]
  unfold Sys.dV
  apply sum_congr rfl
  intro i _
  rw [← comb_Jc]
  unfold comb
  rw [Motion.cross_sum']
  exact sum_congr rfl fun k _ => Motion.cross_smul ..

end ring

variable {K : Type u} [Field K] [LinearOrder K] [IsStrictOrderedRing K] [HasEps K] {s : Sys K}

/-- `Σ_b (J_b w)·(I_b J̇_b x + B_b J_b x)` -/
noncomputable def Sys.corForm (s : Sys K) (q v w x : ℕ → K) : K :=
  ∑ b ∈ Ico 1 s.n, (s.oV q w b).dot ((s.oI q b).mulMF (s.dV q v x b) + (s.cB q v b).mulMF (s.oV q x b))

theorem corForm_entry (h : s.Packed) {q : ℕ → K} (hq : s.At q) (v : ℕ → K) {m i k j l : ℕ} (hi1 : 1 ≤ i) (hi : i < s.n)
    (hk : k < s.jnv i) (hj1 : 1 ≤ j) (hj : j < s.n) (hl : l < s.jnv j)
    (hm : ∀ b, b < s.n → (anc s.par m b ↔ anc s.par i b ∧ anc s.par j b)) :
    s.corForm q v (Sys.unit (s.iv i + k)) (Sys.unit (s.iv j + l)) = s.cEnt q v m i k j l := by
  classical
  unfold Sys.corForm Sys.cEnt Sys.oYm Sys.cBm
  rw [M6.sum_mulMF, M6.sum_mulMF, ← sum_add_distrib, Motion.dot_sum]
  unfold subtree
  rw [sum_filter]
  apply sum_congr rfl
  intro b hb
  rw [mem_Ico] at hb
  rw [Sys.oV_unit h hq hi1 hi hk hb.2, Sys.oV_unit h hq hj1 hj hl hb.2, dV_unit h hj1 hj hl]
  have := hm b hb.2
  by_cases e : anc s.par m b
  · obtain ⟨x, y⟩ := this.1 e
    rw [if_pos e, if_pos x, if_pos y, if_pos y]; rfl
  · rw [if_neg e]
    by_cases x : anc s.par i b
    · have y : ¬ anc s.par j b := fun y => e (this.2 ⟨x, y⟩)
      rw [if_neg y, if_neg y]; simp
    · rw [if_neg x]; simp

theorem corForm_other (h : s.Packed) {q : ℕ → K} (hq : s.At q) (v : ℕ → K) {i k j l : ℕ} (hi1 : 1 ≤ i) (hi : i < s.n)
    (hk : k < s.jnv i) (hj1 : 1 ≤ j) (hj : j < s.n) (hl : l < s.jnv j) (h1 : ¬ anc s.par i j) (h2 : ¬ anc s.par j i) :
    s.corForm q v (Sys.unit (s.iv i + k)) (Sys.unit (s.iv j + l)) = 0 := by
  classical
  unfold Sys.corForm
  apply sum_eq_zero
  intro b hb
  rw [mem_Ico] at hb
  rw [Sys.oV_unit h hq hi1 hi hk hb.2, Sys.oV_unit h hq hj1 hj hl hb.2, dV_unit h hj1 hj hl]
  by_cases x : anc s.par i b
  · by_cases y : anc s.par j b
    · rcases anc_total h.par b hb.2 x y with h' | h'
      · exact absurd h' h1
      · exact absurd h' h2
    · rw [if_neg y, if_neg y]; simp
  · rw [if_neg x]; simp

theorem CorC.form (h : s.Packed) {q v : ℕ → K} (hq : s.At q) {C0 C : ℕ → ℕ → K} (hC : CorC s q v C0 1 C)
    (h0 : s.BranchZero C0) {r c : ℕ} (hr : r < s.nv) (hcv : c < s.nv) :
    C r c = s.corForm q v (Sys.unit r) (Sys.unit c) := by
  obtain ⟨i, k, hi1, hi, hk, rfl⟩ := h.cover hr
  obtain ⟨j, l, hj1, hj, hl, rfl⟩ := h.cover hcv
  by_cases e1 : anc s.par i j
  · rw [hC.down i hi1 hi1 hi k hk j hj e1 l hl]
    exact (corForm_entry h hq v hi1 hi hk hj1 hj hl
      (fun b hb => ⟨fun x => ⟨anc_trans h.par e1 b hb x, x⟩, fun x => x.2⟩)).symm
  · by_cases e2 : anc s.par j i
    · have e3 : anc s.par j (s.par i) := by
        rcases (anc_step hi1 (h.par.2 i hi1 hi)).1 e2 with e | e
        · subst e; exact absurd (anc_refl h.par hi) e1
        · exact e
      rw [hC.up i hi1 hi1 hi k hk j hj1 e3 l hl]
      exact (corForm_entry h hq v hi1 hi hk hj1 hj hl
        (fun b hb => ⟨fun x => ⟨x, anc_trans h.par e2 b hb x⟩, fun x => x.1⟩)).symm
    · rw [hC.other i hi1 hi k hk j hj1 hj e1 e2 l hl, corForm_other h hq v hi1 hi hk hj1 hj hl e1 e2]
      exact h0 i j hi1 hi hj1 hj e1 e2 k hk l hl

theorem M6.mulMF_sum {ι : Type*} (t : Finset ι) (m : M6 K) (g : ι → Motion K) :
    m.mulMF (∑ i ∈ t, g i) = ∑ i ∈ t, m.mulMF (g i) := by
  classical
  induction t using Finset.induction_on with
  | empty => simp
  | insert a t ha ih => rw [sum_insert ha, sum_insert ha, M6.mulMF_add, ih]

theorem corForm_coord (h : s.Packed) {q : ℕ → K} (hq : s.At q) (v w x : ℕ → K) :
    s.corForm q v w x = ∑ c ∈ range s.nv, s.corForm q v w (Sys.unit c) * x c := by
  unfold Sys.corForm
  simp only [sum_mul]
  rw [sum_comm]
  apply sum_congr rfl
  intro b hb
  rw [mem_Ico] at hb
  rw [oV_coord h hq x hb.2, dV_coord h x b, M6.mulMF_sum, M6.mulMF_sum, ← sum_add_distrib, Motion.dot_sum]
  apply sum_congr rfl
  intro c _
  rw [M6.mulMF_smul, M6.mulMF_smul, ← smul_add, Motion.dot_smul, mul_comm]

/-- the Coriolis form applied to the velocity itself -/
theorem corForm_vel {q : ℕ → K} (v w : ℕ → K) :
    s.corForm q v w v = ∑ b ∈ Ico 1 s.n, (s.oV q w b).dot
      ((s.oI q b).mulMF (s.dV q v v b) + (s.oV q v b).crossF ((s.oI q b).mulMF (s.oV q v b))) := by
  unfold Sys.corForm
  apply sum_congr rfl
  intro b _
  rw [cB_mulMF, Motion.cross_self, M6.mulMF_zero, sub_zero, ← two_smul K, smul_smul]
  norm_num

/-- **Bias.** Up to the terms in the biases `c_i = Ṡ_i v_i` of the joints, `C(q,v) v + g(q)` is `nle(q,v)`. -/
theorem C18_bias (h : s.Packed) (hf : s.Full) (hc : crbaCheck s.par s.n = true) (hm : s.MassesOk) (d d' d'' : Data K)
    {q : ℕ → K} (hq : s.At q) (v : ℕ → K) (h0 : s.BranchZero d.C) {r : ℕ} (hr : r < s.nv) :
    (∑ c ∈ range s.nv, (computeCoriolisMatrix s d q v).C r c * v c) + (computeGeneralizedGravity s d' q).g r
      + ∑ b ∈ Ico 1 s.n, (s.oV q (Sys.unit r) b).dot
          ((s.oI q b).mulMF (∑ i ∈ supp s.par s.n b, (s.oM q i).act (s.cb q v i)))
      = (nonLinearEffects s d'' q v).nle r := by
  have hcm := (crbaCheck_iff h.par).1 hc
  have hC := (coriolis_corB h hf hcm hm d hq v).C
  have e1 := nle_power h.wf d'' hq v (Sys.unit r)
  have e2 := grav_power h.wf d' q (Sys.unit r)
  rw [Sys.dotv_unit hr] at e1 e2
  rw [e1, e2, sum_congr rfl (fun c hcr => by rw [hC.form h hq h0 hr (mem_range.1 hcr)]), ← corForm_coord h hq,
    corForm_vel, ← sum_add_distrib, ← sum_add_distrib]
  apply sum_congr rfl
  intro b hb
  rw [mem_Ico] at hb
  have hv := s.oM_valid h.par hq b hb.2
  have eo : s.dV q v v b + ∑ i ∈ supp s.par s.n b, (s.oM q i).act (s.cb q v i) = s.oA q v (fun _ => 0) b := by
    rw [Sys.oA_eq h.par hq v _ b hb.2]
    unfold Sys.dV
    rw [← sum_add_distrib]
    apply sum_congr rfl
    intro i _
    rw [s.jvel_zero]
    simp [add_comm]
  have eF : (s.V q (Sys.unit r) b).dot (s.F (-s.grav) q v (fun _ => 0) b)
      = (s.oV q (Sys.unit r) b).dot ((s.oI q b).mulMF (s.oA q v (fun _ => 0) b)
        + (s.oV q v b).crossF ((s.oI q b).mulMF (s.oV q v b)))
        + (s.V q (Sys.unit r) b).dot ((s.Y b).mul (s.base q b)) := by
    unfold Sys.F
    rw [s.A_base h.par (-s.grav) q v _ b hb.2]
    change _ = _ + (s.V q (Sys.unit r) b).dot ((s.Y b).mul (treeRec s.par (-s.grav) _ b))
    have t1 : ∀ x, (s.oI q b).mulMF ((s.oM q b).act x) = (s.oM q b).actF ((s.Y b).mul x) := by
      intro x
      unfold Sys.oI
      rw [Inertia.matrix_mulMF, Inertia.act_mul hv, SE3.actInv_act hv]
    unfold Sys.oA Sys.oV
    rw [t1, t1, ← Motion.act_crossF hv, ← SE3.actF_add, SE3.dot_act_actF hv, Inertia.mul_add, Motion.dot_add,
      Motion.dot_add, Motion.dot_add]
    ring
  rw [eF, ← eo, M6.mulMF_add, Motion.dot_add, Motion.dot_add, Motion.dot_add]
  ring

/-- so `C(q,v) v + g(q) = nle(q,v)` for joints without bias -/
theorem C18_bias_partial (h : s.Packed) (hf : s.Full) (hc : crbaCheck s.par s.n = true) (hm : s.MassesOk)
    (d d' d'' : Data K) {q : ℕ → K} (hq : s.At q) (v : ℕ → K) (hb : ∀ i, 1 ≤ i → i < s.n → s.cb q v i = 0)
    (h0 : s.BranchZero d.C) {r : ℕ} (hr : r < s.nv) :
    (∑ c ∈ range s.nv, (computeCoriolisMatrix s d q v).C r c * v c) + (computeGeneralizedGravity s d' q).g r
      = (nonLinearEffects s d'' q v).nle r := by
  rw [← C18_bias h hf hc hm d d' d'' hq v h0 hr, left_eq_add]
  apply sum_eq_zero
  intro b _
  rw [sum_eq_zero, M6.mulMF_zero, Motion.dot_zero]
  intro i hi
  obtain ⟨⟨x, y⟩, -⟩ := mem_supp.1 hi
  rw [hb i x y]; simp

theorem Motion.dot_crossF_antisymm {K : Type*} [CommRing K] (a b : Motion K) (f : Force K) :
    a.dot (b.crossF f) = - b.dot (a.crossF f) := by
  simp [Motion.dot, Motion.crossF, V3.dot]; ring

theorem Motion.dot_crossF_move {K : Type*} [CommRing K] (v a : Motion K) (f : Force K) :
    a.dot (v.crossF f) = - (v.cross a).dot f := by
  simp [Motion.dot, Motion.crossF, Motion.cross, V3.dot]; ring

/-- **Passivity.** For joints with constant motion subspaces, `C + Cᵀ` is the derivative of the joint-space inertia
matrix (`C13_entries`: the entries of `crba` are those of `massForm`) along the trajectory. -/
theorem C18_passivity_partial (h : s.Packed) (hf : s.Full) (hc : crbaCheck s.par s.n = true) (hm : s.MassesOk)
    (d : Data K) {q : ℕ → K} (hq : s.At q) (v dq : ℕ → K) (h0 : s.BranchZero d.C)
    {sε : Sys K[ε]} (hs : s.Along sε q v dq)
    (hS : ∀ i, 1 ≤ i → i < s.n → ∀ k, k < s.jnv i → (sε.S (perturb q dq) i k).map snd = 0)
    {r c : ℕ} (hr : r < s.nv) (hcv : c < s.nv) :
    (computeCoriolisMatrix s d q v).C r c + (computeCoriolisMatrix s d q v).C c r
      = (sε.massForm (perturb q dq) (Sys.unit r) (Sys.unit c)).snd := by
  have hcm := (crbaCheck_iff h.par).1 hc
  have hC := (coriolis_corB h hf hcm hm d hq v).C
  rw [hC.form h hq h0 hr hcv, hC.form h hq h0 hcv hr]
  have eu : ∀ r, (Sys.unit r : ℕ → K[ε]) = perturb (Sys.unit r) (fun _ => 0) := by
    intro r; funext k
    unfold perturb Sys.unit
    split <;> simp
  rw [eu r, eu c]
  generalize (Sys.unit r : ℕ → K) = w
  generalize (Sys.unit c : ℕ → K) = x
  unfold Sys.massForm
  rw [snd_add, Sys.snd_sum', hs.n]
  have ez : (sε.dotv (perturb w fun _ => 0) fun r => sε.arm r * perturb x (fun _ => 0) r).snd = 0 := by
    unfold Sys.dotv
    rw [Sys.snd_sum']
    apply sum_eq_zero
    intro r _
    simp [perturb, hs.arm]
  rw [ez, add_zero]
  unfold Sys.corForm
  rw [← sum_add_distrib]
  apply sum_congr rfl
  intro b hb
  rw [mem_Ico] at hb
  have hv := s.oM_valid h.par hq b hb.2
  have dw := Sys.V_snd' hs h.par hq hS w b hb.2
  have dx := Sys.V_snd' hs h.par hq hS x b hb.2
  rw [hs.Y, Motion.snd_dot, Inertia.snd_mul, Inertia.fst_mul, Sys.V_fst hs h.par hq w _ b hb.2,
    Sys.V_fst hs h.par hq x _ b hb.2]
  have t1 : ∀ x, (s.oI q b).mulMF ((s.oM q b).act x) = (s.oM q b).actF ((s.Y b).mul x) := by
    intro x
    unfold Sys.oI
    rw [Inertia.matrix_mulMF, Inertia.act_mul hv, SE3.actInv_act hv]
  rw [cB_mulMF, cB_mulMF, ← dw, ← dx]
  unfold Sys.oV
  rw [← Motion.act_cross hv, ← Motion.act_cross hv]
  simp only [t1]
  rw [← Motion.act_crossF hv, ← Motion.act_crossF hv, ← Motion.act_crossF hv, ← Motion.act_crossF hv]
  simp only [← SE3.actF_sub, ← SE3.actF_add, ← SE3.actF_smul, SE3.dot_act_actF hv]
  generalize ((sε.V (perturb q dq) (perturb w fun _ => 0) b).map snd) = w'
  generalize ((sε.V (perturb q dq) (perturb x fun _ => 0) b).map snd) = x'
  generalize s.V q v b = V
  generalize s.V q w b = W
  generalize s.V q x b = X
  generalize s.Y b = Y
  simp only [Motion.dot_add, Motion.dot_sub, Motion.dot_smul, Inertia.mul_add, Motion.dot_crossF_move V]
  have c1 := Inertia.dot_mul_comm Y w' X
  have c2 := Inertia.dot_mul_comm Y (V.cross W) X
  have c3 := Inertia.dot_mul_comm Y (V.cross X) W
  have c4 := Motion.dot_crossF_antisymm W X (Y.mul V)
  rw [c1, c4, c2, c3]
  ring

/-- hence `Ṁ - 2C` is skew-symmetric -/
theorem C18_skew_partial (h : s.Packed) (hf : s.Full) (hc : crbaCheck s.par s.n = true) (hm : s.MassesOk)
    (d : Data K) {q : ℕ → K} (hq : s.At q) (v dq : ℕ → K) (h0 : s.BranchZero d.C)
    {sε : Sys K[ε]} (hs : s.Along sε q v dq)
    (hS : ∀ i, 1 ≤ i → i < s.n → ∀ k, k < s.jnv i → (sε.S (perturb q dq) i k).map snd = 0)
    {r c : ℕ} (hr : r < s.nv) (hcv : c < s.nv) :
    (sε.massForm (perturb q dq) (Sys.unit r) (Sys.unit c)).snd - 2 * (computeCoriolisMatrix s d q v).C r c
      = - ((sε.massForm (perturb q dq) (Sys.unit c) (Sys.unit r)).snd - 2 * (computeCoriolisMatrix s d q v).C c r) := by
  rw [← C18_passivity_partial h hf hc hm d hq v dq h0 hs hS hr hcv,
    ← C18_passivity_partial h hf hc hm d hq v dq h0 hs hS hcv hr]
  ring

/-- `getCoriolisMatrix` returns the same matrix from data where the kinematics, the momenta and the inertias of the
subtrees are those of `q, v` (`CorPre`), whatever the other contents -/
theorem C18_getCoriolis (h : s.Packed) (hf : s.Full) (hc : crbaCheck s.par s.n = true) (hm : s.MassesOk) (d d' : Data K)
    {q : ℕ → K} (hq : s.At q) (v : ℕ → K) (h0 : s.BranchZero d.C) (h0' : s.BranchZero d'.C) (hd : CorPre s q v d')
    {r c : ℕ} (hr : r < s.nv) (hcv : c < s.nv) :
    (getCoriolisMatrix s d').C r c = (computeCoriolisMatrix s d q v).C r c := by
  have hcm := (crbaCheck_iff h.par).1 hc
  rw [(coriolis_corB h hf hcm hm d hq v).C.form h hq h0 hr hcv, (getCoriolis_corC h hf hcm hd).form h hq h0' hr hcv]

/-- for instance after `computeCoriolisMatrix` -/
theorem C18_getCoriolis_after (h : s.Packed) (hf : s.Full) (hc : crbaCheck s.par s.n = true) (hm : s.MassesOk)
    (d : Data K) {q : ℕ → K} (hq : s.At q) (v : ℕ → K) (h0 : s.BranchZero d.C) {r c : ℕ} (hr : r < s.nv) (hcv : c < s.nv) :
    (getCoriolisMatrix s (computeCoriolisMatrix s d q v)).C r c = (computeCoriolisMatrix s d q v).C r c := by
  have hcm := (crbaCheck_iff h.par).1 hc
  have hB := coriolis_corB h hf hcm hm d hq v
  refine C18_getCoriolis h hf hc hm d _ hq v h0 ?_ (hB.pre h) hr hcv
  intro i j i1 hi j1 hj n1 n2 k hk l hl
  rw [hB.C.other i i1 hi k hk j j1 hj n1 n2 l hl]
  exact h0 i j i1 hi j1 hj n1 n2 k hk l hl

/-- entries between different branches stay as they were -/
theorem C18_untouched (h : s.Packed) (hf : s.Full) (hc : crbaCheck s.par s.n = true) (hm : s.MassesOk)
    (d : Data K) {q : ℕ → K} (hq : s.At q) (v : ℕ → K) (h0 : s.BranchZero d.C) :
    s.BranchZero (computeCoriolisMatrix s d q v).C := by
  have hcm := (crbaCheck_iff h.par).1 hc
  have hB := coriolis_corB h hf hcm hm d hq v
  intro i j i1 hi j1 hj n1 n2 k hk l hl
  rw [hB.C.other i i1 hi k hk j j1 hj n1 n2 l hl]
  exact h0 i j i1 hi j1 hj n1 n2 k hk l hl

set_option maxRecDepth 100000 in
/-- With a `JointModelSphericalZYX`, `C(q,v) v + g(q)` is not `nle(q,v)`. -/
theorem C18_counterexample :
    let q : ℕ → ℚ := fun k => if k = 1 then 1 else 0
    let v : ℕ → ℚ := fun _ => 1
    Ex.sysZ.Packed ∧ Ex.sysZ.Full ∧ crbaCheck Ex.sysZ.par Ex.sysZ.n = true ∧ Ex.sysZ.MassesOk ∧ Ex.sysZ.At q ∧
    (∑ c ∈ range Ex.sysZ.nv, (computeCoriolisMatrix Ex.sysZ Data.zero q v).C 0 c * v c)
      + (computeGeneralizedGravity Ex.sysZ Data.zero q).g 0 ≠ (nonLinearEffects Ex.sysZ Data.zero q v).nle 0 := by
  intro q v
  obtain ⟨a, b, c⟩ := Ex.sysZ_ok
  refine ⟨a, b, by decide, ?_, c q, ?_⟩
  · intro i _ _; exact Ex.sysA_masses 1 (by decide) (by decide)
  · decide +kernel

/-- the hypotheses of the theorems above are met -/
example : Ex.sysA.Packed ∧ Ex.sysA.Full ∧ crbaCheck Ex.sysA.par Ex.sysA.n = true ∧ Ex.sysA.MassesOk ∧
    Ex.sysA.At Ex.qA ∧ Ex.sysA.BranchZero (Data.zero (K := ℚ)).C ∧ Ex.sysA.Along Ex.sysAε Ex.qA Ex.vA Ex.dqA ∧
    (∀ i, 1 ≤ i → i < Ex.sysA.n → Ex.sysA.cb Ex.qA Ex.vA i = 0) ∧
    (∀ i, 1 ≤ i → i < Ex.sysA.n → ∀ k, k < Ex.sysA.jnv i → (Ex.sysAε.S (perturb Ex.qA Ex.dqA) i k).map snd = 0) := by
  refine ⟨Ex.sysA_packed, Ex.sysA_full, by decide, Ex.sysA_masses, Ex.sysA_at, fun _ _ _ _ _ _ _ _ _ _ _ _ => rfl,
    Ex.sysA_along, ?_, ?_⟩
  · intro i h1 hi
    change i < 5 at hi
    interval_cases i <;> rfl
  · intro i h1 hi k hk
    change i < 5 at hi
    interval_cases i
    · have : k < 1 := hk
      interval_cases k; decide +kernel
    · have : k < 1 := hk
      interval_cases k; decide +kernel
    · have : k < 3 := hk
      interval_cases k <;> decide +kernel
    · have : k < 1 := hk
      interval_cases k; decide +kernel

end Pin
