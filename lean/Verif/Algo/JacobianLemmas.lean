import Verif.Algo.Jacobian
import Verif.Algo.Passes
import Verif.Algo.EnergyLemmas
import Mathlib.Algebra.Module.LinearMap.Defs

namespace Pin
open Finset
variable {K : Type*} [CommRing K] {s : Sys K}

/-- world columns for joints below `m` -/
def JOk (s : Sys K) (q : ℕ → K) (m : ℕ) (J : ℕ → Motion K) : Prop :=
  ∀ i, 1 ≤ i → i < m → ∀ k, k < s.jnv i → J (s.iv i + k) = s.Jc q i k

theorem JOk.put (h : s.Packed) {q : ℕ → K} {i : ℕ} (h1 : 1 ≤ i) (hi : i < s.n) {J : ℕ → Motion K}
    (ih : JOk s q i J) {y : ℕ → Motion K} (hy : ∀ k, k < s.jnv i → y k = s.Jc q i k) :
    JOk s q (i + 1) (putSeg J (s.iv i) (s.jnv i) y) := by
  intro j j1 hj k hk
  by_cases e : j = i
  · subst e; rw [putSeg_at _ _ hk]; exact hy k hk
  · rw [h.putSeg_ne _ _ h1 hi j1 (by omega) hk e]; exact ih j j1 (by omega) k hk

theorem jacobianStep_eq (q : ℕ → K) (i : ℕ) (d : Data K) :
    jacobianStep s q i d = { fk0Step s q i d with
      J := putSeg d.J (s.iv i) (s.jnv i)
        (fun k => ((fk0Step s q i d).oMi i).act (((fk0Step s q i d).joints i).S k)) } := rfl

theorem fk0Step_at (hp : ParOk s.par s.n) {q : ℕ → K} {i : ℕ} (h1 : 1 ≤ i) (hi : i < s.n) {d : Data K}
    (hd : s.par i > 0 → d.oMi (s.par i) = s.oM q (s.par i)) :
    (fk0Step s q i d).liMi i = s.X q i ∧ (fk0Step s q i d).oMi i = s.oM q i ∧
      ((fk0Step s q i d).joints i).S = s.S q i ∧ ((fk0Step s q i d).joints i).M = (s.jt i).M (s.qs q i) := by
  have hpi := hp.2 i h1 hi
  have e : (if s.par i > 0 then d.oMi (s.par i) * s.X q i else s.X q i) = s.oM q i := by
    rw [s.oM_step h1 hpi]
    split
    · rw [hd (by assumption)]
    · have : s.par i = 0 := by omega
      rw [this, s.oM_zero, SE3.one_mul]
  simp only [fk0Step, upd_self, Joint.calc]
  refine ⟨?_, e, ?_, ?_⟩ <;> first | trivial | rfl

theorem fk0Step_ne (q : ℕ → K) {i j : ℕ} (hj : j ≠ i) (d : Data K) :
    (fk0Step s q i d).liMi j = d.liMi j ∧ (fk0Step s q i d).oMi j = d.oMi j ∧
      (fk0Step s q i d).joints j = d.joints j := by
  simp only [fk0Step, upd_ne _ _ hj]; exact ⟨trivial, trivial, trivial⟩

theorem jac_ok (h : s.Packed) (d : Data K) (q : ℕ → K) :
    PlOk s q s.n (computeJointJacobians s d q) ∧ JOk s q s.n (computeJointJacobians s d q).J := by
  unfold computeJointJacobians
  apply fwd_ind (P := fun k (d : Data K) => PlOk s q k d ∧ JOk s q k d.J) h.par.1
  · exact ⟨fun i a b => by omega, fun i a b => by omega⟩
  · intro i d h1 hi ih
    have hpi := h.par.2 i h1 hi
    have hat := fk0Step_at h.par (q := q) h1 hi (d := d) (fun hz => (ih.1 _ hz hpi).2.1)
    rw [jacobianStep_eq]
    refine ⟨?_, JOk.put h h1 hi ih.2 (y := fun k => ((fk0Step s q i d).oMi i).act (((fk0Step s q i d).joints i).S k)) ?_⟩
    · intro j j1 hj
      by_cases e : j = i
      · subst e; exact hat
      · obtain ⟨a, b, c⟩ := fk0Step_ne (s := s) q e d
        have := ih.1 j j1 (by omega)
        refine ⟨a.trans this.1, b.trans this.2.1, ?_, ?_⟩
        · change ((fk0Step s q i d).joints j).S = _; rw [c]; exact this.2.2.1
        · change ((fk0Step s q i d).joints j).M = _; rw [c]; exact this.2.2.2
    · intro k _; rw [hat.2.1, hat.2.2.1]; rfl

theorem jacData_ok (h : s.Packed) {d : Data K} {q : ℕ → K} (hd : PlOk s q s.n d) :
    (computeJointJacobiansData s d).oMi = d.oMi ∧ (computeJointJacobiansData s d).joints = d.joints ∧
      JOk s q s.n (computeJointJacobiansData s d).J := by
  unfold computeJointJacobiansData
  apply fwd_ind (P := fun k (e : Data K) => e.oMi = d.oMi ∧ e.joints = d.joints ∧ JOk s q k e.J) h.par.1
  · exact ⟨rfl, rfl, fun i a b => by omega⟩
  · intro i e h1 hi ih
    refine ⟨ih.1, ih.2.1, JOk.put h h1 hi ih.2.2 (y := fun k => (e.oMi i).act ((e.joints i).S k)) ?_⟩
    intro k _
    rw [ih.1, ih.2.1, (hd i h1 hi).2.1, (hd i h1 hi).2.2.1]; rfl

theorem lastCol_eq (i : ℕ) : lastCol s i = (s.rlast i : ℤ) - 1 := by
  unfold lastCol Sys.rlast; split <;> push_cast <;> ring

/-- a walk from the last column of a joint rewrites the columns of its support, and no other -/
theorem rowLoop_support {α : Type*} (h : s.Packed) (hf : s.Full) (g : ℕ → α → α) {j : ℕ} (hj : j < s.n)
    (X : ℕ → α) {i k : ℕ} (h1 : 1 ≤ i) (hi : i < s.n) (hk : k < s.jnv i) [Decidable (anc s.par i j)] :
    rowLoop (parentsFromRow s) (fun j X => upd X j (g j (X j))) (s.nv + 1) (lastCol s j) X (s.iv i + k)
      = if anc s.par i j then g (s.iv i + k) (X (s.iv i + k)) else X (s.iv i + k) := by
  classical
  have hl := rlast_lt h hj
  rw [lastCol_eq, rowLoop_eq h hf g _ (by omega) hl]
  have := anc_rlast h hf h1 hi hk hj
  by_cases hc : anc s.par i j
  · rw [if_pos hc, if_pos (this.2 hc)]
  · rw [if_neg hc, if_neg (fun x => hc (this.1 x))]

theorem translate_at (h : s.Packed) (hf : s.Full) {j : ℕ} (hj : j < s.n) (rf : RF) (M : SE3 K)
    (Jin Jout : ℕ → Motion K) {i k : ℕ} (h1 : 1 ≤ i) (hi : i < s.n) (hk : k < s.jnv i)
    [Decidable (anc s.par i j)] :
    translateJointJacobian s j rf M Jin Jout (s.iv i + k)
      = if anc s.par i j then translateCol M (Jin (s.iv i + k)) rf else Jout (s.iv i + k) :=
  rowLoop_support h hf (fun j _ => translateCol M (Jin j) rf) hj Jout h1 hi hk

/-- product of a joint velocity with a matrix whose non-zero columns are those of the support of `j` -/
theorem sum_support (h : s.Packed) {j : ℕ} {J : ℕ → Motion K} {G : ℕ → ℕ → Motion K}
    (hJ : ∀ i, 1 ≤ i → i < s.n → ∀ k, k < s.jnv i → ∀ [Decidable (anc s.par i j)],
      J (s.iv i + k) = if anc s.par i j then G i k else 0) (v : ℕ → K) :
    ∑ r ∈ range s.nv, v r • J r = ∑ i ∈ supp s.par s.n j, comb (G i) (s.jnv i) (s.vs v i) := by
  classical
  rw [← h.sum_seg (fun r => v r • J r)]
  have : supp s.par s.n j = (Ico 1 s.n).filter (fun i => anc s.par i j) := by
    ext i; rw [mem_supp, mem_filter, mem_Ico]
  rw [this, sum_filter]
  apply sum_congr rfl
  intro i hi
  rw [mem_Ico] at hi
  split
  · rename_i ha
    apply sum_congr rfl
    intro k hk
    rw [hJ i hi.1 hi.2 k (mem_range.1 hk), if_pos ha]
    rfl
  · rename_i ha
    apply sum_eq_zero
    intro k hk
    rw [hJ i hi.1 hi.2 k (mem_range.1 hk), if_neg ha, smul_zero]

theorem comb_lin (g : Motion K →ₗ[K] Motion K) (S : ℕ → Motion K) (n : ℕ) (x : ℕ → K) :
    comb (fun k => g (S k)) n x = g (comb S n x) := by
  unfold comb
  rw [map_sum]
  exact sum_congr rfl fun k _ => (map_smul g _ _).symm

theorem comb_Jc (q w : ℕ → K) (i : ℕ) :
    comb (s.Jc q i) (s.jnv i) (s.vs w i) = (s.oM q i).act (s.jvel q w i) := by
  unfold Sys.jvel comb Sys.Jc
  rw [SE3.act_sum]
  exact sum_congr rfl fun k _ => (SE3.act_smul _ _ _).symm

/-- a `6 × nv` matrix that holds the image of the world columns of the support of `j` by a linear map, and
zero elsewhere, maps a joint velocity to the image of the velocity of `j` -/
theorem mul_support (h : s.Packed) {q : ℕ → K} (hq : s.At q) {j : ℕ} (hj : j < s.n) (g : Motion K →ₗ[K] Motion K)
    {J : ℕ → Motion K}
    (hJ : ∀ i, 1 ≤ i → i < s.n → ∀ k, k < s.jnv i → ∀ [Decidable (anc s.par i j)],
      J (s.iv i + k) = if anc s.par i j then g (s.Jc q i k) else 0) (v : ℕ → K) :
    ∑ r ∈ range s.nv, v r • J r = g (s.oV q v j) := by
  rw [sum_support h hJ, Sys.oV_eq h.par hq v j hj, map_sum]
  apply sum_congr rfl
  intro i _
  rw [comb_lin, comb_Jc]

/-- `translateCol` as a linear map -/
def translateLin (M : SE3 K) (rf : RF) : Motion K →ₗ[K] Motion K where
  toFun v := translateCol M v rf
  map_add' a b := by
    cases rf
    · rfl
    · exact SE3.actInv_add ..
    · simp only [translateCol]; ext <;> simp <;> ring
  map_smul' c a := by
    cases rf
    · rfl
    · exact SE3.actInv_smul ..
    · simp only [translateCol]; ext <;> simp <;> ring

theorem translateCol_act {O : SE3 K} (hO : O.Valid) {P : SE3 K} (hP : P.Valid) (m : Motion K) (rf : RF) :
    translateCol (O * P) (O.act m) rf = inFrameAt O P m rf := by
  cases rf
  · rfl
  · simp only [translateCol, inFrameAt]
    rw [SE3.mul_actInv hO hP, SE3.actInv_act hO]
  · simp only [translateCol, inFrameAt]
    have e := M3.IsRot.mulVec_cross hO m.ang P.trans
    ext1
    · simp only [SE3.act]
      change O.rot.mulVec m.lin + O.trans.cross (O.rot.mulVec m.ang)
        - (O * P).trans.cross (O.rot.mulVec m.ang) = _
      have e2 : (O * P).trans = O.trans + O.rot.mulVec P.trans := rfl
      rw [e2, M3.mulVec_add, e]
      ext <;> simp <;> ring
    · rfl

theorem inFrameAt_one (O : SE3 K) (m : Motion K) (rf : RF) : inFrameAt O 1 m rf = inFrame O m rf := by
  cases rf
  · rfl
  · simp [inFrameAt, inFrame]
  · simp only [inFrameAt, inFrame]
    congr 2
    change m.lin + m.ang.cross 0 = _
    ext <;> simp

/-! ## stand-alone Jacobians -/

theorem jacobianLocalStep_snd (q : ℕ → K) {i : ℕ} (hpi : s.par i ≠ i) (x : Data K × (ℕ → Motion K)) :
    (jacobianLocalStep s q i x).2
      = putSeg x.2 (s.iv i) (s.jnv i) (fun k => (x.1.iMf i).actInv (s.S q i k)) := by
  simp only [jacobianLocalStep, upd_self, upd_ne _ _ hpi.symm, Joint.calc]
  rfl

theorem jacobianLocalStep_iMf (q : ℕ → K) (i : ℕ) (x : Data K × (ℕ → Motion K)) :
    (jacobianLocalStep s q i x).1.iMf (s.par i) = s.X q i * x.1.iMf i := by
  simp only [jacobianLocalStep, upd_self, Joint.calc]
  rfl

/-- the walk from joint `i` to the universe -/
theorem upLoop_jac (h : s.Packed) {q : ℕ → K} (hq : s.At q) {T : SE3 K} {fuel : ℕ} :
    ∀ i, i ≤ fuel → i < s.n → ∀ x : Data K × (ℕ → Motion K), (x.1.iMf i).Valid →
      s.oM q i * x.1.iMf i = T → ∀ a k, 1 ≤ a → a < s.n → k < s.jnv a → ∀ [Decidable (anc s.par a i)],
      (upLoop s.par (jacobianLocalStep s q) fuel i x).2 (s.iv a + k)
        = if anc s.par a i then T.actInv (s.Jc q a k) else x.2 (s.iv a + k) := by
  induction fuel with
  | zero =>
    intro i hi _ x _ _ a k a1 _ _ _
    have : i = 0 := by omega
    subst this
    rw [if_neg (by rw [anc_zero]; omega)]; rfl
  | succ f ih =>
    intro i hi hin x hv hT a k a1 ha hk _
    unfold upLoop
    rcases Nat.eq_zero_or_pos i with rfl | i1
    · rw [if_neg (by omega), if_neg (by rw [anc_zero]; omega)]
    · have hpi := h.par.2 i i1 hin
      have hne : s.par i ≠ i := by omega
      have hX := s.X_valid hq i1 hin
      classical
      rw [if_pos i1, ih _ (by omega) (by omega) _ (by rw [jacobianLocalStep_iMf]; exact hX.mul hv)
        (by rw [jacobianLocalStep_iMf, ← hT, s.oM_step i1 hpi, SE3.mul_assoc]) a k a1 ha hk,
        jacobianLocalStep_snd q hne]
      have hs := anc_step (i := a) i1 hpi
      by_cases e : a = i
      · subst e
        have hno : ¬ anc s.par a (s.par a) := by
          intro hc; have := anc_le h.par _ (by omega) hc; omega
        rw [if_neg hno, if_pos (hs.2 (Or.inl rfl)), putSeg_at _ _ hk, ← hT,
          SE3.mul_actInv (s.oM_valid h.par hq a ha) hv]
        unfold Sys.Jc
        rw [SE3.actInv_act (s.oM_valid h.par hq a ha)]
      · rw [h.putSeg_ne _ _ i1 hin a1 ha hk e]
        by_cases hc : anc s.par a (s.par i)
        · rw [if_pos hc, if_pos (hs.2 (Or.inr hc))]
        · rw [if_neg hc, if_neg]
          intro h'
          rcases hs.1 h' with h' | h'
          · exact e h'
          · exact hc h'

/-- kinematics of the joints of a support -/
theorem fold_fk0 (hp : ParOk s.par s.n) (q : ℕ → K) (d : Data K) : ∀ j, j < s.n →
    ∀ a, 1 ≤ a → anc s.par a j →
      ((path s.par j).foldl (fun d i => fk0Step s q i d) d).oMi a = s.oM q a ∧
      (((path s.par j).foldl (fun d i => fk0Step s q i d) d).joints a).S = s.S q a := by
  intro j hj
  refine Sys.joint_ind s hp ?_ ?_ j hj <;> clear hj j
  · intro a a1 ha; rw [anc_zero] at ha; omega
  · intro i i1 hi ih a a1 ha
    have hpi := hp.2 i i1 hi
    rw [path_step i1 hpi, List.foldl_append]
    simp only [List.foldl_cons, List.foldl_nil]
    have hat := fk0Step_at hp (q := q) i1 hi
      (d := (path s.par (s.par i)).foldl (fun d i => fk0Step s q i d) d)
      (fun hz => (ih _ hz (anc_refl hp (by omega))).1)
    rcases (anc_step i1 hpi).1 ha with e | ha
    · subst e; exact ⟨hat.2.1, hat.2.2.1⟩
    · have hne : a ≠ i := by have := anc_le hp _ (show s.par i < s.n by omega) ha; omega
      obtain ⟨-, b, c⟩ := fk0Step_ne (s := s) q hne
        ((path s.par (s.par i)).foldl (fun d i => fk0Step s q i d) d)
      rw [b, c]; exact ih a a1 ha

/-- columns written along a support -/
theorem fold_put (h : s.Packed) (y : ℕ → ℕ → Motion K) (J : ℕ → Motion K) : ∀ j, j < s.n →
    ∀ a k, 1 ≤ a → a < s.n → k < s.jnv a → ∀ [Decidable (anc s.par a j)],
      (path s.par j).foldl (fun J i => putSeg J (s.iv i) (s.jnv i) (y i)) J (s.iv a + k)
        = if anc s.par a j then y a k else J (s.iv a + k) := by
  intro j hj
  refine Sys.joint_ind s h.par ?_ ?_ j hj <;> clear hj j
  · intro a k a1 _ _ _
    rw [path_zero, if_neg (by rw [anc_zero]; omega)]; rfl
  · intro i i1 hi ih a k a1 ha hk _
    have hpi := h.par.2 i i1 hi
    have hs := anc_step (i := a) i1 hpi
    rw [path_step i1 hpi, List.foldl_append]
    simp only [List.foldl_cons, List.foldl_nil]
    classical
    by_cases e : a = i
    · subst e; rw [putSeg_at _ _ hk, if_pos (hs.2 (Or.inl rfl))]
    · rw [h.putSeg_ne _ _ i1 hi a1 ha hk e, ih a k a1 ha hk]
      by_cases hc : anc s.par a (s.par i)
      · rw [if_pos hc, if_pos (hs.2 (Or.inr hc))]
      · rw [if_neg hc, if_neg]
        intro h'
        rcases hs.1 h' with h' | h'
        · exact e h'
        · exact hc h'

/-- the data part of the world pass is the kinematics pass -/
theorem fold_world_fst (q : ℕ → K) (l : List ℕ) (x : Data K × (ℕ → Motion K)) :
    (l.foldl (fun x i => jacobianWorldStep s q i x) x).1 = l.foldl (fun d i => fk0Step s q i d) x.1 := by
  induction l generalizing x with
  | nil => rfl
  | cons i l ih => exact ih _

theorem fold_world (h : s.Packed) (q : ℕ → K) (x : Data K × (ℕ → Motion K)) : ∀ j, j < s.n →
    ∀ a k, 1 ≤ a → a < s.n → k < s.jnv a → ∀ [Decidable (anc s.par a j)],
      ((path s.par j).foldl (fun x i => jacobianWorldStep s q i x) x).2 (s.iv a + k)
        = if anc s.par a j then s.Jc q a k else x.2 (s.iv a + k) := by
  intro j hj
  refine Sys.joint_ind s h.par ?_ ?_ j hj <;> clear hj j
  · intro a k a1 _ _ _
    rw [path_zero, if_neg (by rw [anc_zero]; omega)]; rfl
  · intro i i1 hi ih a k a1 ha hk _
    have hpi := h.par.2 i i1 hi
    have hs := anc_step (i := a) i1 hpi
    have hfk := fold_fk0 h.par q x.1 (s.par i) (by omega)
    rw [path_step i1 hpi, List.foldl_append]
    simp only [List.foldl_cons, List.foldl_nil]
    have e0 : ∀ z : Data K × (ℕ → Motion K), (jacobianWorldStep s q i z).2
      = putSeg z.2 (s.iv i) (s.jnv i)
        (fun k => ((fk0Step s q i z.1).oMi i).act (((fk0Step s q i z.1).joints i).S k)) := fun _ => rfl
    rw [e0, fold_world_fst]
    have hat := fk0Step_at h.par (q := q) i1 hi
      (d := (path s.par (s.par i)).foldl (fun d i => fk0Step s q i d) x.1)
      (fun hz => (hfk _ hz (anc_refl h.par (by omega))).1)
    classical
    by_cases e : a = i
    · subst e
      rw [putSeg_at _ _ hk, if_pos (hs.2 (Or.inl rfl)), hat.2.1, hat.2.2.1]; rfl
    · rw [h.putSeg_ne _ _ i1 hi a1 ha hk e, ih a k a1 ha hk]
      by_cases hc : anc s.par a (s.par i)
      · rw [if_pos hc, if_pos (hs.2 (Or.inr hc))]
      · rw [if_neg hc, if_neg]
        intro h'
        rcases hs.1 h' with h' | h'
        · exact e h'
        · exact hc h'

/-! ## time variation -/

theorem jacobianTvStep_eq (q v : ℕ → K) (i : ℕ) (d : Data K) :
    jacobianTvStep s q v i d =
      (let d := fk1Step s q v i d
       let d := { d with J := putSeg d.J (s.iv i) (s.jnv i) (fun k => (d.oMi i).act ((d.joints i).S k)) }
       let d := { d with ov := upd d.ov i ((d.oMi i).act (d.v i)) }
       { d with dJ := putSeg d.dJ (s.iv i) (s.jnv i) (fun k => (d.ov i).cross (d.J (s.iv i + k))) }) := rfl

theorem fk1Step_rest (q v : ℕ → K) (i : ℕ) (d : Data K) :
    (fk1Step s q v i d).J = d.J ∧ (fk1Step s q v i d).dJ = d.dJ ∧ (fk1Step s q v i d).ov = d.ov := by
  unfold fk1Step; split <;> exact ⟨rfl, rfl, rfl⟩

/-- what the time-variation pass leaves, joints below `m` -/
structure TvOk (s : Sys K) (q v : ℕ → K) (m : ℕ) (d : Data K) : Prop where
  pl : PlOk s q m d
  vel : VelOk s q v m d
  J : JOk s q m d.J
  ov : ∀ i, 1 ≤ i → i < m → d.ov i = s.oV q v i
  dJ : ∀ i, 1 ≤ i → i < m → ∀ k, k < s.jnv i → d.dJ (s.iv i + k) = (s.oV q v i).cross (s.Jc q i k)

theorem tv_step (h : s.Packed) {q : ℕ → K} (hq : s.At q) (v : ℕ → K) {i : ℕ} (h1 : 1 ≤ i) (hi : i < s.n)
    {d : Data K} (ih : TvOk s q v i d) : TvOk s q v (i + 1) (jacobianTvStep s q v i d) := by
  have hpi := h.par.2 i h1 hi
  obtain ⟨f1, f2⟩ := fk1Step_at h.par hq h1 hi ih.pl ih.vel
  obtain ⟨r1, r2, r3⟩ := fk1Step_rest (s := s) q v i d
  have ec : ∀ k, ((fk1Step s q v i d).oMi i).act (((fk1Step s q v i d).joints i).S k) = s.Jc q i k := by
    intro k; rw [(f1 i h1 (by omega)).2.1, (f1 i h1 (by omega)).2.2.1]; rfl
  have eo : ((fk1Step s q v i d).oMi i).act ((fk1Step s q v i d).v i) = s.oV q v i := by
    rw [(f1 i h1 (by omega)).2.1, (f2 i h1 (by omega)).1]; rfl
  rw [jacobianTvStep_eq]
  refine ⟨f1, f2, ?_, ?_, ?_⟩
  · refine JOk.put h h1 hi (J := (fk1Step s q v i d).J) (by rw [r1]; exact ih.J)
      (y := fun k => ((fk1Step s q v i d).oMi i).act (((fk1Step s q v i d).joints i).S k)) ?_
    intro k _; exact ec k
  · intro j j1 hj
    dsimp only
    by_cases e : j = i
    · subst e; rw [upd_self]; exact eo
    · rw [upd_ne _ _ e, r3]; exact ih.ov j j1 (by omega)
  · intro j j1 hj k hk
    dsimp only
    by_cases e : j = i
    · subst e
      rw [putSeg_at _ _ hk, upd_self, putSeg_at _ _ hk, eo, ec]
    · rw [h.putSeg_ne _ _ h1 hi j1 (by omega) hk e, r2]; exact ih.dJ j j1 (by omega) k hk

theorem tv_ok (h : s.Packed) (d : Data K) {q : ℕ → K} (hq : s.At q) (v : ℕ → K) :
    TvOk s q v s.n (computeJointJacobiansTimeVariation s d q v) := by
  unfold computeJointJacobiansTimeVariation
  apply fwd_ind (P := fun k (d : Data K) => TvOk s q v k d) h.par.1
  · constructor <;> intro i a b <;> omega
  · intro i d h1 hi ih
    exact tv_step h hq v h1 hi ih

/-- acceleration of body `i` in the world frame, when the universe does not accelerate -/
def Sys.oA (s : Sys K) (q v a : ℕ → K) (i : ℕ) : Motion K := (s.oM q i).act (s.A 0 q v a i)

theorem Sys.oA_eq (hp : ParOk s.par s.n) {q : ℕ → K} (hq : s.At q) (v a : ℕ → K) : ∀ j, j < s.n →
    s.oA q v a j = ∑ i ∈ supp s.par s.n j, ((s.oM q i).act (s.jvel q a i) + (s.oM q i).act (s.cb q v i)
      + (s.oV q v i).cross ((s.oM q i).act (s.jvel q v i))) := by
  apply sum_supp hp
  · unfold Sys.oA; rw [s.A_zero]; simp
  · intro i h1 hi
    have hpi := hp.2 i h1 hi
    have hv := s.oM_valid hp hq i hi
    unfold Sys.oA
    rw [s.A_step h1 hpi, SE3.act_add, SE3.act_add, SE3.act_add]
    congr 1
    · congr 1
      unfold Sys.oV
      rw [Motion.act_cross hv]
    · rw [s.oM_step h1 hpi, SE3.mul_act (s.oM_valid hp hq _ (by omega)), SE3.act_actInv (s.X_valid hq h1 hi)]

end Pin
