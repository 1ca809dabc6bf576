import Verif.Algo.ComLemmas
import Verif.Algo.Subtree

/-! # What the Jacobians of `center-of-mass.hxx` hold -/

set_option linter.unusedSectionVars false

namespace Pin
open Finset
variable {K : Type*} [Field K] {s : Sys K}

/-- velocity of the material point at `p` for a spatial velocity, as a linear map -/
def pointVel (p : V3 K) : Motion K →ₗ[K] V3 K where
  toFun m := m.lin + m.ang.cross p
  map_add' a b := by ext <;> simp <;> ring
  map_smul' c a := by ext <;> simp <;> ring

theorem pointVel_apply (p : V3 K) (m : Motion K) : pointVel p m = m.lin + m.ang.cross p := rfl

theorem wcom_eq {q : ℕ → K} (hp : ParOk s.par s.n) (hq : s.At q) (v : ℕ → K) {b : ℕ} (hb : b < s.n) :
    s.wcom q v b = pointVel (s.pcom q b) (s.oV q v b) := by
  have hR := s.oM_valid hp hq b hb
  unfold Sys.wcom Sys.pcom Sys.oV
  rw [pointVel_apply, M3.mulVec_add, M3.IsRot.mulVec_cross hR]
  ext <;> simp [SE3.act, SE3.actP] <;> ring

/-- column of the Jacobian of the centre of mass of the subtree of `root` -/
noncomputable def Sys.comCol (s : Sys K) (q : ℕ → K) (root a k : ℕ) : V3 K := by
  classical
  exact (s.subMass root)⁻¹ • ∑ b ∈ (subtree s.par s.n root).filter (fun b => anc s.par a b),
    (s.Y b).mass • pointVel (s.pcom q b) (s.Jc q a k)

theorem com_mul (h : s.Packed) {q : ℕ → K} (hq : s.At q) (v : ℕ → K) {J : ℕ → V3 K} {root : ℕ}
    (hJ : ∀ a, 1 ≤ a → a < s.n → ∀ k, k < s.jnv a → J (s.iv a + k) = s.comCol q root a k) :
    ∑ r ∈ range s.nv, v r • J r = (s.subMass root)⁻¹ • s.msum (s.wcom q v) root := by
  classical
  rw [← h.sum_seg (fun r => v r • J r)]
  have e1 : ∀ a ∈ Ico 1 s.n, ∑ k ∈ range (s.jnv a), v (s.iv a + k) • J (s.iv a + k)
      = (s.subMass root)⁻¹ • ∑ b ∈ (subtree s.par s.n root).filter (fun b => anc s.par a b),
        (s.Y b).mass • pointVel (s.pcom q b) ((s.oM q a).act (s.jvel q v a)) := by
    intro a ha
    rw [mem_Ico] at ha
    have : ∀ k ∈ range (s.jnv a), v (s.iv a + k) • J (s.iv a + k)
        = (s.subMass root)⁻¹ • ∑ b ∈ (subtree s.par s.n root).filter (fun b => anc s.par a b),
        (s.Y b).mass • pointVel (s.pcom q b) (s.vs v a k • s.Jc q a k) := by
      intro k hk
      rw [hJ a ha.1 ha.2 k (mem_range.1 hk)]
      unfold Sys.comCol
      rw [smul_comm, smul_sum]
      congr 1
      apply sum_congr rfl
      intro b _
      rw [map_smul, smul_comm]
      rfl
    rw [sum_congr rfl this, ← smul_sum, sum_comm]
    congr 1
    apply sum_congr rfl
    intro b _
    rw [← smul_sum, ← map_sum, ← comb_Jc]
    rfl
  rw [sum_congr rfl e1, ← smul_sum]
  congr 1
  unfold Sys.msum
  have e2 : ∀ b ∈ subtree s.par s.n root, (s.Y b).mass • s.wcom q v b
      = ∑ a ∈ supp s.par s.n b, (s.Y b).mass • pointVel (s.pcom q b) ((s.oM q a).act (s.jvel q v a)) := by
    intro b hb
    have hbn := ((mem_subtree).1 hb).1.2
    rw [wcom_eq h.par hq v hbn, Sys.oV_eq h.par hq v b hbn, map_sum, smul_sum]
  rw [sum_congr rfl e2]
  apply sum_comm'
  intro a b
  simp only [mem_Ico, mem_filter, mem_supp, mem_subtree]
  tauto

/-- what the backward loop over the joints of `t` does to `data` and to the matrix -/
structure JcB (s : Sys K) (q : ℕ → K) (sub : Bool) (d0 : Data K) (R0 : ℕ → V3 K) (t : List ℕ)
    (x : Data K × (ℕ → V3 K)) : Prop where
  oMi : x.1.oMi = d0.oMi
  joints : x.1.joints = d0.joints
  Jcom : x.1.Jcom = d0.Jcom
  mass : ∀ i, i ∈ t → x.1.mass i = s.subMass i
  com : ∀ i, i ∈ t → x.1.com i = if sub then (s.msum (s.pcom q) i).divS (s.subMass i) else s.msum (s.pcom q) i
  mass' : ∀ i, i ∉ t → x.1.mass i = d0.mass i + ∑ c ∈ (kids s.par s.n i).filter (· ∈ t), s.subMass c
  com' : ∀ i, i ∉ t → x.1.com i = d0.com i + ∑ c ∈ (kids s.par s.n i).filter (· ∈ t), s.msum (s.pcom q) c
  J : ∀ i, i ∈ t → ∀ k, k < s.jnv i → x.1.J (s.iv i + k) = s.Jc q i k
  J' : ∀ i, 1 ≤ i → i < s.n → i ∉ t → ∀ k, k < s.jnv i → x.1.J (s.iv i + k) = d0.J (s.iv i + k)
  R : ∀ i, i ∈ t → ∀ k, k < s.jnv i → x.2 (s.iv i + k) = R0 (s.iv i + k)
    + (s.subMass i • (s.Jc q i k).lin - (s.msum (s.pcom q) i).cross (s.Jc q i k).ang)
  R' : ∀ i, 1 ≤ i → i < s.n → i ∉ t → ∀ k, k < s.jnv i → x.2 (s.iv i + k) = R0 (s.iv i + k)

theorem msum_step (hp : ParOk s.par s.n) (w : ℕ → V3 K) {i : ℕ} (h1 : 1 ≤ i) (hi : i < s.n) :
    s.msum w i = (s.Y i).mass • w i + ∑ c ∈ kids s.par s.n i, s.msum w c :=
  sum_subtree hp (fun b => (s.Y b).mass • w b) h1 hi

theorem subMass_step (hp : ParOk s.par s.n) {i : ℕ} (h1 : 1 ≤ i) (hi : i < s.n) :
    s.subMass i = (s.Y i).mass + ∑ c ∈ kids s.par s.n i, s.subMass c :=
  sum_subtree hp (fun b => (s.Y b).mass) h1 hi

theorem msum_root (hp : ParOk s.par s.n) (w : ℕ → V3 K) : ∑ c ∈ kids s.par s.n 0, s.msum w c = s.msum w 0 := by
  unfold Sys.msum
  rw [subtree_root hp]
  exact sum_kids_zero hp (fun b => (s.Y b).mass • w b)

/-- one step of a sum over the children met so far -/
theorem sum_filter_cons {α : Type*} [AddCommMonoid α] {par : ℕ → ℕ} {n a : ℕ} {t : List ℕ} (h1 : 1 ≤ a) (hn : a < n)
    (ha : a ∉ t) (f : ℕ → α) (i : ℕ) :
    ∑ c ∈ (kids par n i).filter (· ∈ a :: t), f c
      = if i = par a then ∑ c ∈ (kids par n i).filter (· ∈ t), f c + f a
        else ∑ c ∈ (kids par n i).filter (· ∈ t), f c := by
  split
  · rename_i e
    have : (kids par n i).filter (· ∈ a :: t) = insert a ((kids par n i).filter (· ∈ t)) := by
      ext c
      simp only [mem_filter, mem_insert, mem_kids, List.mem_cons]
      constructor
      · rintro ⟨⟨⟨x, y⟩, z⟩, rfl | w⟩
        · exact Or.inl rfl
        · exact Or.inr ⟨⟨⟨x, y⟩, z⟩, w⟩
      · rintro (rfl | ⟨⟨⟨x, y⟩, z⟩, w⟩)
        · exact ⟨⟨⟨h1, hn⟩, e.symm⟩, Or.inl rfl⟩
        · exact ⟨⟨⟨x, y⟩, z⟩, Or.inr w⟩
    rw [this, sum_insert (by simp [ha]), add_comm]
  · rename_i e
    apply sum_congr _ fun _ _ => rfl
    ext c
    simp only [mem_filter, mem_kids, List.mem_cons]
    constructor
    · rintro ⟨⟨xy, z⟩, rfl | w⟩
      · exact absurd z.symm e
      · exact ⟨⟨xy, z⟩, w⟩
    · rintro ⟨⟨xy, z⟩, w⟩; exact ⟨⟨xy, z⟩, Or.inr w⟩

theorem jacComBwd_eq (sub : Bool) (i : ℕ) (x : Data K × (ℕ → V3 K)) (hne : s.par i ≠ i) :
    let X := jacComBwd s sub i x
    X.1.oMi = x.1.oMi ∧ X.1.joints = x.1.joints ∧ X.1.Jcom = x.1.Jcom ∧
    X.1.mass = pushDiv (s.par i) i (x.1.mass i) false id x.1.mass ∧
    X.1.com = pushDiv (s.par i) i (x.1.com i) sub (fun c => c.divS (x.1.mass i)) x.1.com ∧
    X.1.J = putSeg x.1.J (s.iv i) (s.jnv i) (fun k => (x.1.oMi i).act ((x.1.joints i).S k)) ∧
    X.2 = putSeg x.2 (s.iv i) (s.jnv i) (fun k => x.2 (s.iv i + k)
      + (x.1.mass i • (putSeg x.1.J (s.iv i) (s.jnv i) (fun k => (x.1.oMi i).act ((x.1.joints i).S k)) (s.iv i + k)).lin
        - (x.1.com i).cross
          (putSeg x.1.J (s.iv i) (s.jnv i) (fun k => (x.1.oMi i).act ((x.1.joints i).S k)) (s.iv i + k)).ang)) := by
  have e1 : upd x.1.mass (s.par i) (x.1.mass (s.par i) + x.1.mass i) i = x.1.mass i := upd_ne _ _ (Ne.symm hne)
  have e2 : upd x.1.com (s.par i) (x.1.com (s.par i) + x.1.com i) i = x.1.com i := upd_ne _ _ (Ne.symm hne)
  cases sub <;> simp [jacComBwd, pushDiv, e1, e2]

theorem pushDiv_ne {α : Type*} [Add α] {p i j : ℕ} {t : α} {sub : Bool} {D : α → α} {f : ℕ → α} (h : j ≠ i) :
    pushDiv p i t sub D f j = if j = p then f j + t else f j := by
  have : upd f p (f p + t) j = if j = p then f j + t else f j := by
    by_cases e : j = p
    · subst e; rw [upd_self, if_pos rfl]
    · rw [upd_ne _ _ e, if_neg e]
  unfold pushDiv
  cases sub
  · exact this
  · simp only [if_true]
    rw [upd_ne _ _ h]; exact this

theorem jac_fold (h : s.Packed) {q : ℕ → K} (sub : Bool) {d0 : Data K} (R0 : ℕ → V3 K) (l : List ℕ)
    (hs : l.Pairwise (· < ·)) (hl : ∀ i, i ∈ l → 1 ≤ i ∧ i < s.n) (hc : ∀ i, i ∈ l → ∀ c ∈ kids s.par s.n i, c ∈ l)
    (hM : ∀ i, i ∈ l → d0.oMi i = s.oM q i) (hS : ∀ i, i ∈ l → (d0.joints i).S = s.S q i)
    (hm : ∀ i, i ∈ l → d0.mass i = (s.Y i).mass) (hcm : ∀ i, i ∈ l → d0.com i = (s.Y i).mass • s.pcom q i) :
    JcB s q sub d0 R0 l (l.foldr (jacComBwd s sub) (d0, R0)) := by
  induction l with
  | nil => constructor <;> simp
  | cons a t ih =>
    have hat : a ∉ t := fun hx => absurd (List.rel_of_pairwise_cons hs hx) (lt_irrefl a)
    have hlt : ∀ c, c ∈ t → a < c := fun c hx => List.rel_of_pairwise_cons hs hx
    obtain ⟨a1, an⟩ := hl a List.mem_cons_self
    have hpa := h.par.2 a a1 an
    have hne : s.par a ≠ a := by omega
    have hpt : s.par a ∉ t := fun hx => by have := hlt _ hx; omega
    have IH := ih hs.of_cons (fun i hi => hl i (List.mem_cons_of_mem _ hi))
      (fun i hi c hci => by
        rcases List.mem_cons.1 (hc i (List.mem_cons_of_mem _ hi) c hci) with e | e
        · obtain ⟨⟨c1, cn⟩, e'⟩ := mem_kids.1 hci
          have := h.par.2 c c1 cn; have := hlt i hi; omega
        · exact e)
      (fun i hi => hM i (List.mem_cons_of_mem _ hi)) (fun i hi => hS i (List.mem_cons_of_mem _ hi))
      (fun i hi => hm i (List.mem_cons_of_mem _ hi)) (fun i hi => hcm i (List.mem_cons_of_mem _ hi))
    rw [List.foldr_cons]
    generalize t.foldr (jacComBwd s sub) (d0, R0) = x at IH
    have hkd : (kids s.par s.n a).filter (· ∈ t) = kids s.par s.n a := by
      apply filter_true_of_mem
      intro c hci
      rcases List.mem_cons.1 (hc a List.mem_cons_self c hci) with e | e
      · obtain ⟨⟨c1, cn⟩, e'⟩ := mem_kids.1 hci
        have := h.par.2 c c1 cn; omega
      · exact e
    have vm : x.1.mass a = s.subMass a := by
      rw [IH.mass' a hat, hkd, hm a List.mem_cons_self, ← subMass_step h.par a1 an]
    have vc : x.1.com a = s.msum (s.pcom q) a := by
      rw [IH.com' a hat, hkd, hcm a List.mem_cons_self, ← msum_step h.par _ a1 an]
    have vJ : ∀ k, (x.1.oMi a).act ((x.1.joints a).S k) = s.Jc q a k := by
      intro k
      rw [IH.oMi, IH.joints, hM a List.mem_cons_self, hS a List.mem_cons_self]; rfl
    obtain ⟨e1, e2, e3, e4, e5, e6, e7⟩ := jacComBwd_eq sub a x hne
    refine ⟨e1.trans IH.oMi, e2.trans IH.joints, e3.trans IH.Jcom, ?_, ?_, ?_, ?_, ?_, ?_, ?_, ?_⟩
    · intro i hi
      rw [e4]
      rcases List.mem_cons.1 hi with rfl | hi
      · rw [pushDiv_at hpa]; exact vm
      · rw [pushDiv_gt hpa (hlt i hi)]; exact IH.mass i hi
    · intro i hi
      rw [e5]
      rcases List.mem_cons.1 hi with rfl | hi
      · rw [pushDiv_at hpa, vc, vm]
      · rw [pushDiv_gt hpa (hlt i hi)]; exact IH.com i hi
    · intro i hi
      have hia : i ≠ a := fun e => hi (e ▸ List.mem_cons_self)
      have hit : i ∉ t := fun e => hi (List.mem_cons_of_mem _ e)
      rw [e4, pushDiv_ne hia, IH.mass' i hit, vm, sum_filter_cons a1 an hat]
      split
      · rw [add_assoc]
      · rfl
    · intro i hi
      have hia : i ≠ a := fun e => hi (e ▸ List.mem_cons_self)
      have hit : i ∉ t := fun e => hi (List.mem_cons_of_mem _ e)
      rw [e5, pushDiv_ne hia, IH.com' i hit, vc, sum_filter_cons a1 an hat]
      split
      · rw [add_assoc]
      · rfl
    · intro i hi k hk
      rw [e6]
      rcases List.mem_cons.1 hi with rfl | hi
      · rw [putSeg_at _ _ hk]; exact vJ k
      · rw [h.putSeg_ne _ _ a1 an (hl i (List.mem_cons_of_mem _ hi)).1 (hl i (List.mem_cons_of_mem _ hi)).2 hk
          (by have := hlt i hi; omega)]
        exact IH.J i hi k hk
    · intro i i1 hin hi k hk
      have hia : i ≠ a := fun e => hi (e ▸ List.mem_cons_self)
      rw [e6, h.putSeg_ne _ _ a1 an i1 hin hk hia]
      exact IH.J' i i1 hin (fun e => hi (List.mem_cons_of_mem _ e)) k hk
    · intro i hi k hk
      rw [e7]
      rcases List.mem_cons.1 hi with rfl | hi
      · rw [putSeg_at _ _ hk, putSeg_at _ _ hk, vJ k, vm, vc, IH.R' i a1 an hat k hk]
      · rw [h.putSeg_ne _ _ a1 an (hl i (List.mem_cons_of_mem _ hi)).1 (hl i (List.mem_cons_of_mem _ hi)).2 hk
          (by have := hlt i hi; omega)]
        exact IH.R i hi k hk
    · intro i i1 hin hi k hk
      have hia : i ≠ a := fun e => hi (e ▸ List.mem_cons_self)
      rw [e7, h.putSeg_ne _ _ a1 an i1 hin hk hia]
      exact IH.R' i i1 hin (fun e => hi (List.mem_cons_of_mem _ e)) k hk

/-- the first loop -/
theorem jacComFwd_fold (q : ℕ → K) (l : List ℕ) (d : Data K) (hM : ∀ i, i ∈ l → d.oMi i = s.oM q i) :
    let D := l.foldl (fun d i => jacComFwd s i d) d
    D.oMi = d.oMi ∧ D.joints = d.joints ∧ D.J = d.J ∧
    (∀ i, i ∈ l → D.mass i = (s.Y i).mass ∧ D.com i = (s.Y i).mass • s.pcom q i) ∧
    (∀ i, i ∉ l → D.mass i = d.mass i ∧ D.com i = d.com i) := by
  induction l using List.reverseRecOn with
  | nil => simp
  | append_singleton t a ih =>
    obtain ⟨e1, e2, e3, e4, e5⟩ := ih (fun i hi => hM i (List.mem_append_left _ hi))
    rw [List.foldl_append, List.foldl_cons, List.foldl_nil]
    generalize t.foldl (fun d i => jacComFwd s i d) d = D at e1 e2 e3 e4 e5
    refine ⟨e1, e2, e3, ?_, ?_⟩
    · intro i hi
      by_cases e : i = a
      · subst e
        refine ⟨upd_self _ _ _, (upd_self _ _ _).trans ?_⟩
        change (s.Y i).mass • (D.oMi i).actP _ = _
        rw [e1, hM i hi]; rfl
      · have : i ∈ t := by
          rcases List.mem_append.1 hi with h | h
          · exact h
          · exact absurd (List.mem_singleton.1 h) e
        exact ⟨(upd_ne _ _ e).trans (e4 i this).1, (upd_ne _ _ e).trans (e4 i this).2⟩
    · intro i hi
      have e : i ≠ a := fun e => hi (e ▸ by simp)
      have : i ∉ t := fun x => hi (List.mem_append_left _ x)
      exact ⟨(upd_ne _ _ e).trans (e5 i this).1, (upd_ne _ _ e).trans (e5 i this).2⟩

theorem msum_pointVel (q : ℕ → K) (a k : ℕ) :
    s.subMass a • (s.Jc q a k).lin - (s.msum (s.pcom q) a).cross (s.Jc q a k).ang
      = ∑ b ∈ subtree s.par s.n a, (s.Y b).mass • pointVel (s.pcom q b) (s.Jc q a k) := by
  unfold Sys.subMass Sys.msum
  generalize s.Jc q a k = m
  generalize subtree s.par s.n a = t
  classical
  induction t using Finset.induction_on with
  | empty => ext <;> simp
  | insert b t hb ih =>
    rw [sum_insert hb, sum_insert hb, sum_insert hb, ← ih, pointVel_apply]
    ext <;> simp <;> ring

/-- a column of a joint of the subtree of `root` -/
theorem comCol_below (hp : ParOk s.par s.n) (q : ℕ → K) {root a k : ℕ} (h1 : 1 ≤ a) (ha : a < s.n)
    (hr : anc s.par root a) : s.comCol q root a k = (s.subMass root)⁻¹ •
      (s.subMass a • (s.Jc q a k).lin - (s.msum (s.pcom q) a).cross (s.Jc q a k).ang) := by
  rw [msum_pointVel]
  unfold Sys.comCol
  congr 1
  apply sum_congr _ fun _ _ => rfl
  ext b
  simp only [mem_filter, mem_subtree]
  constructor
  · rintro ⟨⟨x, y⟩, z⟩; exact ⟨x, z⟩
  · rintro ⟨x, z⟩; exact ⟨⟨x, anc_trans hp hr b x.2 z⟩, z⟩

/-- a column of a joint above `root` -/
theorem comCol_above (hp : ParOk s.par s.n) (q : ℕ → K) {root a k : ℕ} (hr : anc s.par a root)
    (hm : s.subMass root ≠ 0) : s.comCol q root a k =
      (s.Jc q a k).lin - ((s.subMass root)⁻¹ • s.msum (s.pcom q) root).cross (s.Jc q a k).ang := by
  classical
  have e : s.comCol q root a k = (s.subMass root)⁻¹ • ∑ b ∈ subtree s.par s.n root,
      (s.Y b).mass • pointVel (s.pcom q b) (s.Jc q a k) := by
    unfold Sys.comCol
    congr 1
    apply sum_congr _ fun _ _ => rfl
    apply filter_true_of_mem
    intro b hb
    obtain ⟨x, y⟩ := mem_subtree.1 hb
    exact anc_trans hp hr b x.2 y
  have e2 : ∑ b ∈ subtree s.par s.n root, (s.Y b).mass • pointVel (s.pcom q b) (s.Jc q a k)
      = s.subMass root • (s.Jc q a k).lin - (s.msum (s.pcom q) root).cross (s.Jc q a k).ang := by
    unfold Sys.subMass Sys.msum
    generalize s.Jc q a k = m
    generalize subtree s.par s.n root = t
    induction t using Finset.induction_on with
    | empty => ext <;> simp
    | insert b t hb ih =>
      rw [sum_insert hb, sum_insert hb, sum_insert hb, ih, pointVel_apply]
      ext <;> simp <;> ring
  rw [e, e2]
  ext <;> simp <;> field_simp

/-- a column of a joint that is neither above nor below `root` -/
theorem comCol_out (hp : ParOk s.par s.n) (q : ℕ → K) {root a k : ℕ} (h1 : ¬ anc s.par a root)
    (h2 : ¬ anc s.par root a) : s.comCol q root a k = 0 := by
  classical
  unfold Sys.comCol
  rw [filter_eq_empty_iff.2, sum_empty, smul_zero]
  intro b hb hab
  obtain ⟨x, y⟩ := mem_subtree.1 hb
  rcases anc_total hp b x.2 hab y with h | h
  · exact h1 h
  · exact h2 h

/-- what `jacobianCenterOfMass` leaves -/
structure JcOut (s : Sys K) (q : ℕ → K) (sub : Bool) (d : Data K) : Prop where
  mass : ∀ i, i < s.n → d.mass i = s.subMass i
  com0 : d.com 0 = (s.subMass 0)⁻¹ • s.msum (s.pcom q) 0
  com : ∀ i, 1 ≤ i → i < s.n →
    d.com i = if sub then (s.subMass i)⁻¹ • s.msum (s.pcom q) i else s.msum (s.pcom q) i
  J : JOk s q s.n d.J
  Jcom : ∀ a, 1 ≤ a → a < s.n → ∀ k, k < s.jnv a → d.Jcom (s.iv a + k) = s.comCol q 0 a k

theorem jacobianCenterOfMass_out (h : s.Packed) {q : ℕ → K} (sub : Bool) {d : Data K} (hd : PlOk s q s.n d) :
    JcOut s q sub (jacobianCenterOfMassD s d sub) := by
  have hp := h.par
  have hn := hp.1
  set l := List.range' 1 (s.n - 1) with hl
  have hmem : ∀ i, i ∈ l ↔ 1 ≤ i ∧ i < s.n := by
    intro i; rw [hl, List.mem_range'_1]; omega
  set d1 : Data K := { d with com := upd d.com 0 0, mass := upd d.mass 0 0 } with hd1
  obtain ⟨f1, f2, f3, f4, f5⟩ := jacComFwd_fold (s := s) q l d1 (fun i hi => by
    obtain ⟨a, b⟩ := (hmem i).1 hi; exact (hd i a b).2.1)
  set D := l.foldl (fun d i => jacComFwd s i d) d1 with hD
  have hB := jac_fold h (q := q) sub (d0 := D) (fun _ => 0) l (List.pairwise_lt_range' (s := 1) (n := s.n - 1) (step := 1) (by omega))
    (fun i hi => (hmem i).1 hi) (fun i hi c hc => (hmem c).2 (mem_kids.1 hc).1)
    (fun i hi => by
      obtain ⟨a, b⟩ := (hmem i).1 hi
      rw [f1]; exact (hd i a b).2.1)
    (fun i hi => by
      obtain ⟨a, b⟩ := (hmem i).1 hi
      rw [f2]; exact (hd i a b).2.2.1)
    (fun i hi => (f4 i hi).1) (fun i hi => (f4 i hi).2)
  set x := l.foldr (jacComBwd s sub) (D, fun _ => 0) with hx
  have e : jacobianCenterOfMassD s d sub = { x.1 with
      com := upd x.1.com 0 ((x.1.com 0).divS (x.1.mass 0))
      Jcom := fun r => (x.2 r).divS (x.1.mass 0) } := rfl
  have h0 : (0 : ℕ) ∉ l := fun h => by have := (hmem 0).1 h; omega
  have hk0 : (kids s.par s.n 0).filter (· ∈ l) = kids s.par s.n 0 :=
    filter_true_of_mem fun c hc => (hmem c).2 (mem_kids.1 hc).1
  have m0 : x.1.mass 0 = s.subMass 0 := by
    rw [hB.mass' 0 h0, hk0, (f5 0 h0).1, subMass_root hp]
    change upd d.mass 0 0 0 + _ = _
    rw [upd_self, zero_add]
  have c0 : x.1.com 0 = s.msum (s.pcom q) 0 := by
    rw [hB.com' 0 h0, hk0, (f5 0 h0).2, msum_root hp]
    change upd d.com 0 0 0 + _ = _
    rw [upd_self, zero_add]
  rw [e]
  refine ⟨?_, ?_, ?_, ?_, ?_⟩
  · intro i hi
    rcases Nat.eq_zero_or_pos i with rfl | hpos
    · exact m0
    · exact hB.mass i ((hmem i).2 ⟨hpos, hi⟩)
  · change upd x.1.com 0 ((x.1.com 0).divS (x.1.mass 0)) 0 = _
    rw [upd_self, m0, c0, V3.divS_eq]
  · intro i h1 hi
    change upd x.1.com 0 ((x.1.com 0).divS (x.1.mass 0)) i = _
    rw [upd_ne _ _ (by omega), hB.com i ((hmem i).2 ⟨h1, hi⟩), V3.divS_eq]
  · intro i h1 hi k hk
    exact hB.J i ((hmem i).2 ⟨h1, hi⟩) k hk
  · intro i h1 hi k hk
    change (x.2 _).divS (x.1.mass 0) = _
    rw [hB.R i ((hmem i).2 ⟨h1, hi⟩) k hk, m0, zero_add, V3.divS_eq, comCol_below hp q h1 hi (anc_root hp i hi)]

/-- the walk above `root` -/
theorem upLoop_com (h : s.Packed) {q : ℕ → K} {root : ℕ} {fuel : ℕ} :
    ∀ i, i ≤ fuel → i < s.n → ∀ x : Data K × (ℕ → V3 K), (∀ a, 1 ≤ a → a < s.n → x.1.oMi a = s.oM q a) →
      (∀ a, 1 ≤ a → a < s.n → (x.1.joints a).S = s.S q a) →
      ∀ a k, 1 ≤ a → a < s.n → k < s.jnv a → ∀ [Decidable (anc s.par a i)],
      (upLoop s.par (jacSubComBwd s root) fuel i x).2 (s.iv a + k)
        = if anc s.par a i then x.2 (s.iv a + k) + ((s.Jc q a k).lin - (x.1.com root).cross (s.Jc q a k).ang)
          else x.2 (s.iv a + k) := by
  induction fuel with
  | zero =>
    intro i hi _ x _ _ a k a1 _ _ _
    have : i = 0 := by omega
    subst this
    rw [if_neg (by rw [anc_zero]; omega)]; rfl
  | succ f ih =>
    intro i hi hin x hM hS a k a1 ha hk _
    unfold upLoop
    rcases Nat.eq_zero_or_pos i with rfl | i1
    · rw [if_neg (by omega), if_neg (by rw [anc_zero]; omega)]
    · have hpi := h.par.2 i i1 hin
      classical
      rw [if_pos i1, ih _ (by omega) (by omega) (jacSubComBwd s root i x) hM hS a k a1 ha hk]
      have hs := anc_step (i := a) i1 hpi
      have e2 : (jacSubComBwd s root i x).2 = putSeg x.2 (s.iv i) (s.jnv i) (fun k => x.2 (s.iv i + k)
          + (((putSeg x.1.J (s.iv i) (s.jnv i) (fun k => (x.1.oMi i).act ((x.1.joints i).S k))) (s.iv i + k)).lin
            - (x.1.com root).cross
              ((putSeg x.1.J (s.iv i) (s.jnv i) (fun k => (x.1.oMi i).act ((x.1.joints i).S k))) (s.iv i + k)).ang)) :=
        rfl
      have e3 : (jacSubComBwd s root i x).1.com = x.1.com := rfl
      rw [e2, e3]
      by_cases e : a = i
      · subst e
        have hno : ¬ anc s.par a (s.par a) := by
          intro hc; have := anc_le h.par _ (by omega) hc; omega
        rw [if_neg hno, if_pos (hs.2 (Or.inl rfl)), putSeg_at _ _ hk, putSeg_at _ _ hk, hM a a1 ha, hS a a1 ha]
        rfl
      · rw [h.putSeg_ne _ _ i1 hin a1 ha hk e]
        by_cases hc : anc s.par a (s.par i)
        · rw [if_pos hc, if_pos (hs.2 (Or.inr hc))]
        · rw [if_neg hc, if_neg]
          intro h'
          rcases hs.1 h' with h' | h'
          · exact e h'
          · exact hc h'

/-- a list that holds the joints of the subtree of `root`, in increasing order (`model.subtrees[root]`, see
`C02_subtrees`) -/
structure IsSubtree (s : Sys K) (root : ℕ) (l : List ℕ) : Prop where
  sorted : l.Pairwise (· < ·)
  mem : ∀ j, j ∈ l ↔ (1 ≤ j ∧ j < s.n) ∧ anc s.par root j

theorem not_anc_par (hp : ParOk s.par s.n) {i : ℕ} (h1 : 1 ≤ i) (hi : i < s.n) {a : ℕ} (ha : anc s.par i a) (han : a < s.n) :
    ¬ anc s.par a (s.par i) := by
  intro hc
  have hpi := hp.2 i h1 hi
  have := anc_le hp _ (show s.par i < s.n by omega) hc
  have := anc_le hp _ han ha
  omega

theorem jacobianSubtree_out [LinearOrder K] (h : s.Packed) (hc : Compact s.par s.n) {q : ℕ → K} {d : Data K}
    (hd : PlOk s q s.n d) {l : List ℕ} {root : ℕ} (hr : root < s.n) (hl : IsSubtree s root l)
    (hm : 0 < s.subMass root) :
    ∃ x, jacobianSubtreeCenterOfMassD s d l root (fun _ => 0) = some x ∧
      (∀ a, 1 ≤ a → a < s.n → ∀ k, k < s.jnv a → x.2 (s.iv a + k) = s.comCol q root a k) ∧
      (1 ≤ root → x.1.com root = (s.subMass root)⁻¹ • s.msum (s.pcom q) root) := by
  have hp := h.par
  classical
  set d1 : Data K := if root = 0 then { d with mass := upd d.mass 0 0, com := upd d.com 0 0 } else d with hd1
  have eM : d1.oMi = d.oMi := by rw [hd1]; split <;> rfl
  have eS : d1.joints = d.joints := by rw [hd1]; split <;> rfl
  obtain ⟨f1, f2, f3, f4, f5⟩ := jacComFwd_fold (s := s) q l d1 (fun i hi => by
    obtain ⟨a, b⟩ := ((hl.mem i).1 hi).1; rw [eM]; exact (hd i a b).2.1)
  set D := l.foldl (fun d i => jacComFwd s i d) d1 with hD
  set D' : Data K := { D with Jcom := fun _ => 0 } with hD'
  have hB := jac_fold h (q := q) true (d0 := D') (fun _ => 0) l hl.sorted
    (fun i hi => ((hl.mem i).1 hi).1) (fun i hi c hcc => by
      obtain ⟨⟨c1, cn⟩, e⟩ := mem_kids.1 hcc
      refine (hl.mem c).2 ⟨⟨c1, cn⟩, (anc_step c1 (hp.2 c c1 cn)).2 (Or.inr ?_)⟩
      rw [e]; exact ((hl.mem i).1 hi).2)
    (fun i hi => by
      obtain ⟨a, b⟩ := ((hl.mem i).1 hi).1
      change D.oMi i = _
      rw [f1, eM]; exact (hd i a b).2.1)
    (fun i hi => by
      obtain ⟨a, b⟩ := ((hl.mem i).1 hi).1
      change (D.joints i).S = _
      rw [f2, eS]; exact (hd i a b).2.2.1)
    (fun i hi => (f4 i hi).1) (fun i hi => (f4 i hi).2)
  set x := l.foldr (jacComBwd s true) (D', fun _ => 0) with hx
  have e : jacobianSubtreeCenterOfMassD s d l root (fun _ => 0) =
    if 0 < x.1.mass root then
      if root = 0 then some (x.1, fun r => (1 / x.1.mass root) • x.2 r)
      else some (upLoop s.par (jacSubComBwd s root) s.n (s.par root)
        (x.1, putSeg x.2 (s.iv root) (s.nvSub root) (fun k => (1 / x.1.mass root) • x.2 (s.iv root + k))))
    else none := rfl
  have mr : x.1.mass root = s.subMass root := by
    rcases Nat.eq_zero_or_pos root with e | hpos
    · subst e
      have h0 : (0 : ℕ) ∉ l := fun h => by have := ((hl.mem 0).1 h).1; omega
      have hk0 : (kids s.par s.n 0).filter (· ∈ l) = kids s.par s.n 0 :=
        filter_true_of_mem fun c hc => (hl.mem c).2 ⟨(mem_kids.1 hc).1, anc_root hp c (mem_kids.1 hc).1.2⟩
      rw [hB.mass' 0 h0, hk0, subMass_root hp]
      change D.mass 0 + _ = _
      rw [(f5 0 h0).1, hd1, if_pos rfl]
      change upd d.mass 0 0 0 + _ = _
      rw [upd_self, zero_add]
    · exact hB.mass root ((hl.mem root).2 ⟨⟨hpos, hr⟩, anc_refl hp hr⟩)
  rw [e, mr, if_pos hm]
  by_cases hz : root = 0
  · rw [if_pos hz]
    refine ⟨_, rfl, ?_, fun h1 => absurd hz (by omega)⟩
    intro a a1 ha k hk
    have hra : anc s.par root a := hz ▸ anc_root hp a ha
    change (1 / s.subMass root) • x.2 _ = _
    rw [hB.R a ((hl.mem a).2 ⟨⟨a1, ha⟩, hra⟩) k hk, zero_add, comCol_below hp q a1 ha hra, one_div]
  · have r1 : 1 ≤ root := by omega
    have hpr := hp.2 root r1 hr
    have cr : x.1.com root = (s.subMass root)⁻¹ • s.msum (s.pcom q) root := by
      rw [hB.com root ((hl.mem root).2 ⟨⟨r1, hr⟩, anc_refl hp hr⟩), if_pos rfl, V3.divS_eq]
    rw [if_neg hz]
    refine ⟨_, rfl, ?_, fun _ => ?_⟩
    · intro a a1 ha k hk
      rw [upLoop_com h (q := q) (s.par root) (by omega) (by omega) _ (fun i a b => by
          change x.1.oMi i = _
          rw [hB.oMi]; change D.oMi i = _; rw [f1, eM]; exact (hd i a b).2.1)
        (fun i a b => by
          change (x.1.joints i).S = _
          rw [hB.joints]; change (D.joints i).S = _; rw [f2, eS]; exact (hd i a b).2.2.1) a k a1 ha hk]
      dsimp only
      rw [cr]
      by_cases hb : anc s.par root a
      · rw [if_neg (not_anc_par hp r1 hr hb ha), putSeg_in _ _ ((h.nvSub_iff hc r1 hr a1 ha hk).2 hb)]
        have : s.iv root + (s.iv a + k - s.iv root) = s.iv a + k := by
          have := ((h.nvSub_iff hc r1 hr a1 ha hk).2 hb).1; omega
        rw [this, hB.R a ((hl.mem a).2 ⟨⟨a1, ha⟩, hb⟩) k hk, zero_add, comCol_below hp q a1 ha hb, one_div]
      · have h0 : x.2 (s.iv a + k) = 0 := hB.R' a a1 ha (fun hx => hb ((hl.mem a).1 hx).2) k hk
        rw [putSeg_out _ _ (fun hx => hb ((h.nvSub_iff hc r1 hr a1 ha hk).1 hx)), h0]
        by_cases hab : anc s.par a (s.par root)
        · have : anc s.par a root := (anc_step r1 hpr).2 (Or.inr hab)
          rw [if_pos hab, zero_add, comCol_above hp q this hm.ne']
        · rw [if_neg hab, comCol_out hp q _ hb]
          intro hx
          rcases (anc_step r1 hpr).1 hx with e' | e'
          · exact hb (by rw [e']; exact anc_refl hp hr)
          · exact hab e'
    · have key : ∀ f i (y : Data K × (ℕ → V3 K)),
          (upLoop s.par (jacSubComBwd s root) f i y).1.com = y.1.com := by
        intro f
        induction f with
        | zero => intro i y; rfl
        | succ f ih =>
          intro i y
          unfold upLoop
          split
          · rw [ih]; rfl
          · rfl
      rw [key]; exact cr

theorem getJacobianSubtree_out (h : s.Packed) (hf : s.Full) (hc : Compact s.par s.n) {q : ℕ → K} {d : Data K}
    (hd : JcOut s q true d) {root : ℕ} (hr : root < s.n) (hm : s.subMass root ≠ 0) (h0 : s.subMass 0 ≠ 0) :
    ∀ a, 1 ≤ a → a < s.n → ∀ k, k < s.jnv a →
      getJacobianSubtreeCenterOfMass s d root (fun _ => 0) (s.iv a + k) = s.comCol q root a k := by
  intro a a1 ha k hk
  have hp := h.par
  classical
  unfold getJacobianSubtreeCenterOfMass
  by_cases hz : root = 0
  · rw [if_pos hz, hz]; exact hd.Jcom a a1 ha k hk
  · have r1 : 1 ≤ root := by omega
    have hpr := hp.2 root r1 hr
    rw [if_neg hz]
    have e : parentsFromRow s (s.iv root) = lastCol s (s.par root) := by
      rw [(parentsFromRow_spec h hf root r1 hr).1]
      unfold lastCol
      split <;> split <;> first | rfl | omega
    rw [e, rowLoop_support h hf (fun j _ => (d.J j).lin - (d.com root).cross (d.J j).ang) (by omega) _ a1 ha hk]
    rw [hd.J a a1 ha k hk, hd.com root r1 hr, if_pos rfl, hd.mass 0 (by omega), hd.mass root hr]
    by_cases hb : anc s.par root a
    · rw [if_neg (not_anc_par hp r1 hr hb ha), putSeg_in _ _ ((h.nvSub_iff hc r1 hr a1 ha hk).2 hb)]
      have : s.iv root + (s.iv a + k - s.iv root) = s.iv a + k := by
        have := ((h.nvSub_iff hc r1 hr a1 ha hk).2 hb).1; omega
      rw [this, hd.Jcom a a1 ha k hk, comCol_below hp q a1 ha hb, comCol_below hp q a1 ha (anc_root hp a ha), smul_smul]
      congr 1
      field_simp
    · rw [putSeg_out _ _ (fun hx => hb ((h.nvSub_iff hc r1 hr a1 ha hk).1 hx))]
      by_cases hab : anc s.par a (s.par root)
      · have : anc s.par a root := (anc_step r1 hpr).2 (Or.inr hab)
        rw [if_pos hab, comCol_above hp q this hm]
      · rw [if_neg hab, comCol_out hp q _ hb]
        intro hx
        rcases (anc_step r1 hpr).1 hx with e' | e'
        · exact hb (by rw [e']; exact anc_refl hp hr)
        · exact hab e'

end Pin
