import Verif.Algo.AllTerms
import Verif.Props.Centroidal
import Verif.Algo.CentroidalDerOut

/-! # What `computeAllTerms` computes -/

set_option linter.unusedSectionVars false

namespace Pin
open Finset
universe u
variable {K : Type u} [Field K] [LinearOrder K] [IsStrictOrderedRing K] [HasEps K] {s : Sys K}

/-! ## forward pass -/

theorem catFwd_eq (q v : ℕ → K) {i : ℕ} (hne : s.par i ≠ i) (d : Data K) :
    let t := jacobianTvStep s q v i d
    let e := catFwd s q v i d
    let c := (t.joints i).c + (t.v i).cross (t.joints i).v
    e.joints = t.joints ∧ e.liMi = t.liMi ∧ e.oMi = t.oMi ∧ e.v = t.v ∧ e.ov = t.ov ∧ e.J = t.J ∧ e.dJ = t.dJ ∧
    e.oYcrb = upd d.oYcrb i ((s.Y i).act (t.oMi i)) ∧
    e.doYcrb = upd d.doYcrb i (((s.Y i).act (t.oMi i)).variation (t.ov i)) ∧
    e.a i = (if s.par i > 0 then c + (t.liMi i).actInv (d.a (s.par i)) else c) ∧ (∀ j, j ≠ i → e.a j = d.a j) ∧
    e.a_gf = upd d.a_gf i (c + (t.liMi i).actInv (d.a_gf (s.par i))) ∧
    e.h = upd d.h i ((s.Y i).mul (t.v i)) ∧
    e.f = upd d.f i ((s.Y i).mul (e.a_gf i) + (t.v i).crossF ((s.Y i).mul (t.v i))) ∧
    e.M = d.M := by
  intro t e c
  by_cases hp : s.par i > 0
  · refine ⟨?_, ?_, ?_, ?_, ?_, ?_, ?_, ?_, ?_, ?_, fun j hj => ?_, ?_, ?_, ?_, ?_⟩
    rotate_left 10
    · simp only [e, catFwd, hp, if_true, Function.update_idem]; exact upd_ne _ _ hj
    all_goals simp only [t, e, c, catFwd, jacobianTvStep, hp, if_true, upd_self, upd_ne _ _ hne, Function.update_idem]
  · refine ⟨?_, ?_, ?_, ?_, ?_, ?_, ?_, ?_, ?_, ?_, fun j hj => ?_, ?_, ?_, ?_, ?_⟩
    rotate_left 10
    · simp only [e, catFwd, hp, if_false, Function.update_idem]; exact upd_ne _ _ hj
    all_goals simp only [t, e, c, catFwd, jacobianTvStep, hp, if_false, upd_self, upd_ne _ _ hne, Function.update_idem]

/-- what the forward pass leaves, joints below `k` -/
structure CatF (s : Sys K) (q v : ℕ → K) (k : ℕ) (d : Data K) : Prop where
  tv : TvOk s q v k d
  Y0 : d.oYcrb 0 = 0
  Y : ∀ i, 1 ≤ i → i < k → d.oYcrb i = (s.Y i).act (s.oM q i)
  dY : ∀ i, 1 ≤ i → i < k → d.doYcrb i = ((s.Y i).act (s.oM q i)).variation (s.oV q v i)
  acc : ∀ i, i < k → d.a i = s.A 0 q v (fun _ => 0) i
  agf : ∀ i, i < k → d.a_gf i = s.A (-s.grav) q v (fun _ => 0) i
  h0 : d.h 0 = 0
  h : ∀ i, 1 ≤ i → i < k → d.h i = (s.Y i).mul (s.V q v i)
  f : ∀ i, 1 ≤ i → i < k → d.f i = s.F (-s.grav) q v (fun _ => 0) i

theorem TvOk.congr {q v : ℕ → K} {k : ℕ} {d e : Data K} (h : TvOk s q v k d) (e1 : e.joints = d.joints)
    (e2 : e.liMi = d.liMi) (e3 : e.oMi = d.oMi) (e4 : e.v = d.v) (e5 : e.ov = d.ov) (e6 : e.J = d.J) (e7 : e.dJ = d.dJ) :
    TvOk s q v k e := by
  refine ⟨?_, ?_, ?_, ?_, ?_⟩
  · intro i h1 hi; rw [e1, e2, e3]; exact h.pl i h1 hi
  · intro i h1 hi; rw [e1, e4]; exact h.vel i h1 hi
  · rw [e6]; exact h.J
  · rw [e5]; exact h.ov
  · rw [e7]; exact h.dJ

theorem CatF.step (h : s.Packed) {q : ℕ → K} (hq : s.At q) {v : ℕ → K} {i : ℕ} (h1 : 1 ≤ i) (hi : i < s.n) {d : Data K}
    (ih : CatF s q v i d) : CatF s q v (i + 1) (catFwd s q v i d) := by
  have hpi := h.par.2 i h1 hi
  have ht := tv_step h hq v h1 hi ih.tv
  obtain ⟨p1, p2, p3, -⟩ := ht.pl i h1 (by omega)
  obtain ⟨v1, v2, v3⟩ := ht.vel i h1 (by omega)
  have o1 := ht.ov i h1 (by omega)
  obtain ⟨e1, e2, e3, e4, e5, e6, e7, e8, e9, e10, e11, e12, e13, e14, -⟩ :=
    catFwd_eq (s := s) q v (show s.par i ≠ i by omega) d
  rw [p2] at e8 e9
  rw [o1] at e9
  rw [v1, v2, v3, p1] at e10 e12
  rw [v1] at e13 e14
  have ea : (catFwd s q v i d).a i = s.A 0 q v (fun _ => 0) i := by
    rw [e10, s.A_step h1 hpi, s.jvel_zero]
    split
    · rw [ih.acc _ hpi]; abel
    · have : s.par i = 0 := by omega
      rw [this, s.A_zero]; simp
  have eg : (catFwd s q v i d).a_gf i = s.A (-s.grav) q v (fun _ => 0) i := by
    rw [e12, upd_self, s.A_step h1 hpi, s.jvel_zero, ih.agf _ hpi]; abel
  rw [eg] at e14
  refine ⟨ht.congr e1 e2 e3 e4 e5 e6 e7, ?_, ?_, ?_, ?_, ?_, ?_, ?_, ?_⟩
  · rw [e8, upd_ne _ _ (by omega)]; exact ih.Y0
  · rw [e8]; exact upd_lt_succ1 ih.Y rfl
  · rw [e9]; exact upd_lt_succ1 ih.dY rfl
  · intro j hj
    by_cases e : j = i
    · subst e; exact ea
    · rw [e11 j e]; exact ih.acc j (by omega)
  · intro j hj
    by_cases e : j = i
    · subst e; exact eg
    · rw [e12, upd_ne _ _ e]; exact ih.agf j (by omega)
  · rw [e13, upd_ne _ _ (by omega)]; exact ih.h0
  · rw [e13]; exact upd_lt_succ1 ih.h rfl
  · rw [e14]; exact upd_lt_succ1 ih.f rfl

theorem catFwd_ok (h : s.Packed) {q : ℕ → K} (hq : s.At q) (v : ℕ → K) {d : Data K} (hY : d.oYcrb 0 = 0)
    (ha : d.a 0 = 0) (hg : d.a_gf 0 = -s.grav) (hh : d.h 0 = 0) :
    CatF s q v s.n (fwd (catFwd s q v) s.n d) ∧ (fwd (catFwd s q v) s.n d).M = d.M ∧
      (fwd (catFwd s q v) s.n d).f 0 = d.f 0 ∧
      ∀ i, 1 ≤ i → i < s.n → ((fwd (catFwd s q v) s.n d).joints i).jv
        = if (s.jt i).setsV then s.vs v i else (d.joints i).jv := by
  have := fwd_ind (step := catFwd s q v) (n := s.n) (d := d)
    (P := fun k (e : Data K) => CatF s q v k e ∧ e.M = d.M ∧ e.f 0 = d.f 0 ∧ ∀ i, 1 ≤ i → i < s.n → (e.joints i).jv
      = if i < k ∧ (s.jt i).setsV then s.vs v i else (d.joints i).jv) h.par.1
    ⟨⟨⟨fun i a b => by omega, fun i a b => by omega, fun i a b => by omega, fun i a b => by omega,
      fun i a b => by omega⟩, hY, fun i a b => by omega, fun i a b => by omega,
      fun i b => by rw [show i = 0 by omega, ha, s.A_zero], fun i b => by rw [show i = 0 by omega, hg, s.A_zero],
      hh, fun i a b => by omega, fun i a b => by omega⟩, rfl, rfl,
      fun i h1 hi => by rw [if_neg (by omega)]⟩
    (by
      rintro i e h1 hi ⟨a, b, c, g⟩
      obtain ⟨e1, -, -, -, -, -, -, -, -, -, -, -, -, e14, e15⟩ :=
        catFwd_eq (s := s) q v (show s.par i ≠ i by have := h.par.2 i h1 hi; omega) e
      refine ⟨a.step h hq h1 hi, e15.trans b, ?_, ?_⟩
      · rw [e14, upd_ne _ _ (by omega)]; exact c
      · intro j hj1 hj
        have ej : (jacobianTvStep s q v i e).joints
            = upd e.joints i ((s.jt i).calcV (s.qs q i) (s.vs v i) (e.joints i)) := by
          unfold jacobianTvStep; dsimp only; split <;> rfl
        rw [e1, ej]
        by_cases hji : j = i
        · subst hji
          rw [upd_self]
          change (if (s.jt j).setsV then s.vs v j else (e.joints j).jv) = _
          have := g j hj1 hj
          rw [if_neg (by omega)] at this
          rw [this]
          by_cases hs : (s.jt j).setsV = true
          · rw [if_pos hs, if_pos ⟨by omega, hs⟩]
          · rw [if_neg hs, if_neg (fun h => hs h.2)]
        · rw [upd_ne _ _ hji, g j hj1 hj]
          by_cases hs : (s.jt j).setsV = true
          · by_cases hlt : j < i
            · rw [if_pos ⟨hlt, hs⟩, if_pos ⟨by omega, hs⟩]
            · rw [if_neg (by omega), if_neg (by omega)]
          · rw [if_neg (fun h => hs h.2), if_neg (fun h => hs h.2)])
  refine ⟨this.1, this.2.1, this.2.2.1, fun i h1 hi => ?_⟩
  rw [this.2.2.2 i h1 hi]
  by_cases hs : (s.jt i).setsV = true
  · rw [if_pos ⟨hi, hs⟩, if_pos hs]
  · rw [if_neg (fun h => hs h.2), if_neg hs]

/-! ## backward pass -/

/-- force on body `b` in the world, gravity included, for zero joint accelerations -/
def Sys.ofg (s : Sys K) (q v : ℕ → K) (b : ℕ) : Force K :=
  (s.oM q b).actF (s.F (-s.grav) q v (fun _ => 0) b)

/-- state in the backward pass -/
structure CatB (s : Sys K) (q v : ℕ → K) (M0 : ℕ → ℕ → K) (f0 : Force K) (jv : ℕ → ℕ → K) (k : ℕ) (d : Data K) :
    Prop where
  tv : TvOk s q v s.n d
  jv : ∀ i, 1 ≤ i → i < s.n → (d.joints i).jv = jv i
  acc : ∀ i, i < s.n → d.a i = s.A 0 q v (fun _ => 0) i
  cwb : CWB s q M0 k d
  Y : YB s q k d.oYcrb
  dY : PAcc s.par s.n (fun _ x => x) (fun b => ((s.Y b).act (s.oM q b)).variation (s.oV q v b)) k d.doYcrb
  h : RAcc s.par s.n (fun c x => (s.X q c).actF x) (fun i => if i = 0 then 0 else (s.oM q i).actInvF (s.oh q v i))
    (s.lforce q (s.oh q v)) k d.h
  f : RAcc s.par s.n (fun c x => (s.X q c).actF x) (fun i => if i = 0 then f0 else (s.oM q i).actInvF (s.ofg q v i))
    (s.lforce q (s.ofg q v)) k d.f
  fp : PAcc s.par s.n (fun i => (s.X q i).actF) (s.F (-s.grav) q v (fun _ => 0)) k d.f
  dAg : ∀ i, 1 ≤ i → k ≤ i → i < s.n → ∀ l, l < s.jnv i →
    d.dAg (s.iv i + l) = (s.dYm q v i).mulMF (s.Jc q i l) + (s.oYm q i).mulMF (s.dJc q v i l)
  nle : ∀ i, 1 ≤ i → k ≤ i → i < s.n → ∀ l, l < s.jnv i → d.nle (s.iv i + l) = (s.S q i l).dot (d.f i)
  mass : ∀ i, 1 ≤ i → k ≤ i → i < s.n → d.mass i = s.subMass i
  com : ∀ i, 1 ≤ i → k ≤ i → i < s.n → s.subMass i • d.com i = s.lcom q i
  vcom : ∀ i, 1 ≤ i → k ≤ i → i < s.n → d.vcom i = (s.subMass i)⁻¹ • s.lvec q (s.wcom q v) i

/-- the accumulation does not depend on the value at the universe -/
theorem lforce_acc' (hp : ParOk s.par s.n) {q : ℕ → K} (hq : s.At q) (f : ℕ → Force K) (f0 : Force K) :
    IsAcc s.par s.n (fun c x => (s.X q c).actF x) (fun i => if i = 0 then f0 else (s.oM q i).actInvF (f i))
      (s.lforce q f) :=
  IsAcc.of_sum hp (fun i b => (s.oM q i).actInvF (f b)) (fun i h1 _ => if_neg (by omega))
    (fun _ h1 hc => lforce_T hp hq f h1 hc)

theorem lforce_lin (q v : ℕ → K) (i : ℕ) : (s.lforce q (s.oh q v) i).lin = s.lvec q (s.wcom q v) i := by
  unfold Sys.lforce Sys.lvec
  rw [Force.sum_lin]
  apply sum_congr rfl
  intro b _
  unfold Sys.oh Sys.wcom
  ext <;> simp [SE3.actF, SE3.actInvF, Inertia.mul, M3.mulVec, M3.tr] <;> ring

theorem lcom_eq {q : ℕ → K} {i : ℕ} {Y : Inertia K} (h : Y.matrix = s.oYm q i) :
    s.subMass i • (s.oM q i).actInvP Y.lever = s.lcom q i := by
  obtain ⟨m1, m2⟩ := inertia_of_matrix h
  have e : ∀ (R : M3 K) (t : Finset ℕ) (g : ℕ → V3 K), R.mulVec (∑ b ∈ t, g b) = ∑ b ∈ t, R.mulVec (g b) := by
    intro R t g
    classical
    induction t using Finset.induction_on with
    | empty => ext <;> simp [M3.mulVec]
    | insert a t ha ih => rw [sum_insert ha, sum_insert ha, ← ih]; ext <;> simp [M3.mulVec] <;> ring
  have e1 : s.subMass i • (s.oM q i).actInvP Y.lever
      = (s.oM q i).rot.tr.mulVec (s.msum (s.pcom q) i - s.subMass i • (s.oM q i).trans) := by
    rw [← m2, m1]
    ext <;> simp [SE3.actInvP, M3.mulVec, M3.tr] <;> ring
  rw [e1]
  unfold Sys.msum Sys.subMass Sys.lcom
  rw [sum_smul, ← sum_sub_distrib, e]
  apply sum_congr rfl
  intro b _
  ext <;> simp [SE3.actInvP, M3.mulVec, M3.tr] <;> ring

theorem CatB.step (h : s.Packed) (hcm : Compact s.par s.n) {q v : ℕ → K} (hq : s.At q) {M0 : ℕ → ℕ → K} {f0 : Force K}
    {jv : ℕ → ℕ → K} {i : ℕ} {d : Data K} (h1 : 1 ≤ i) (hi : i < s.n) (ih : CatB s q v M0 f0 jv (i + 1) d) :
    CatB s q v M0 f0 jv i (catBwd s i d) := by
  have hp := h.par
  have hpi := hp.2 i h1 hi
  have hne : i ≠ s.par i := by omega
  have hc := crbaWorldBwd_step h hcm h1 hi ih.cwb
  have hYi := ih.Y.val hp h1 hi
  have hdY := ih.dY.eq_acc hp (dYm_acc hp q v) i h1 hi le_rfl
  obtain ⟨l1, o1, S1, -⟩ := ih.tv.pl i h1 hi
  have hJ : ∀ l, l < s.jnv i → d.J (s.iv i + l) = s.Jc q i l := fun l hl => ih.tv.J i h1 hi l hl
  have hdJ : ∀ l, l < s.jnv i → d.dJ (s.iv i + l) = s.dJc q v i l := fun l hl => ih.tv.dJ i h1 hi l hl
  have hhi := ih.h.val hp h1 hi (lforce_acc hp hq _)
  have eYi : upd d.oYcrb (s.par i) (Inertia.addAssign (d.oYcrb (s.par i)) (d.oYcrb i)) i = d.oYcrb i := upd_ne _ _ hne
  have ef : (catBwd s i d).f = upd d.f (s.par i) (d.f (s.par i) + (d.liMi i).actF (d.f i)) := rfl
  have eh : (catBwd s i d).h = upd d.h (s.par i) (d.h (s.par i) + (d.liMi i).actF (d.h i)) := rfl
  have ed : (catBwd s i d).dAg = putSeg (putSeg d.dAg (s.iv i) (s.jnv i)
        (fun k => (d.doYcrb i).mulMF (d.J (s.iv i + k)))) (s.iv i) (s.jnv i)
      (fun k => putSeg d.dAg (s.iv i) (s.jnv i) (fun k => (d.doYcrb i).mulMF (d.J (s.iv i + k))) (s.iv i + k)
        + (d.oYcrb i).mul (d.dJ (s.iv i + k))) := rfl
  have en : (catBwd s i d).nle = putSeg d.nle (s.iv i) (s.jnv i) (fun k => ((d.joints i).S k).dot (d.f i)) := rfl
  have em : (catBwd s i d).mass = upd d.mass i (d.oYcrb i).mass := by
    unfold catBwd; dsimp only; rw [eYi]
  have ec : (catBwd s i d).com = upd d.com i ((d.oMi i).actInvP (d.oYcrb i).lever) := by
    unfold catBwd; dsimp only; rw [eYi]
  have ev : (catBwd s i d).vcom = upd d.vcom i ((d.h i).lin.divS (d.oYcrb i).mass) := by
    unfold catBwd; dsimp only; rw [upd_self, eYi, upd_ne _ _ hne]
  obtain ⟨m1, m2⟩ := inertia_of_matrix hYi
  refine ⟨ih.tv.congr rfl rfl rfl rfl rfl rfl rfl, ih.jv, ih.acc, ⟨hc.J, hc.mass, hc.acc, hc.acc0, hc.mass0, hc.Ag, hc.M, hc.M0⟩,
    ih.Y.step hp h1 hi, ?_, ?_, ?_, ?_, ?_, ?_, ?_, ?_, ?_⟩
  · apply PAcc.step hp h1 hi ih.dY
    intro j hj1
    exact upd_push _ _ _ j
  · refine ih.h.step hp h1 hi (lforce_acc hp hq _) fun j _ => ?_
    rw [eh, upd_push, l1]
  · refine ih.f.step hp h1 hi (lforce_acc' hp hq _ _) fun j _ => ?_
    rw [ef, upd_push, l1]
  · apply PAcc.step hp h1 hi ih.fp
    intro j _
    rw [ef, upd_push, l1]
  · intro j j1 hj hjn l hl
    rw [ed]
    by_cases e : j = i
    · subst e
      rw [putSeg_at _ _ hl, putSeg_at _ _ hl, hJ l hl, hdJ l hl, ← Inertia.matrix_mulMF, hYi, hdY]
    · rw [h.putSeg_ne _ _ h1 hi j1 hjn hl e, h.putSeg_ne _ _ h1 hi j1 hjn hl e]
      exact ih.dAg j j1 (by omega) hjn l hl
  · intro j j1 hj hjn l hl
    rw [en, ef]
    by_cases e : j = i
    · subst e
      rw [putSeg_at _ _ hl, S1, upd_ne _ _ hne]
    · rw [h.putSeg_ne _ _ h1 hi j1 hjn hl e, upd_ne _ _ (by omega)]
      exact ih.nle j j1 (by omega) hjn l hl
  · intro j j1 hj hjn
    rw [em]
    by_cases e : j = i
    · subst e; rw [upd_self, m1]
    · rw [upd_ne _ _ e]; exact ih.mass j j1 (by omega) hjn
  · intro j j1 hj hjn
    rw [ec]
    by_cases e : j = i
    · subst e; rw [upd_self, o1, lcom_eq hYi]
    · rw [upd_ne _ _ e]; exact ih.com j j1 (by omega) hjn
  · intro j j1 hj hjn
    rw [ev]
    by_cases e : j = i
    · subst e; rw [upd_self, m1, hhi, lforce_lin, V3.divS_eq]
    · rw [upd_ne _ _ e]; exact ih.vcom j j1 (by omega) hjn

theorem catCore_ok (h : s.Packed) (hcm : Compact s.par s.n) (hm : s.MassesOk) (d : Data K) {q : ℕ → K} (hq : s.At q)
    (v : ℕ → K) :
    CatB s q v d.M (d.f 0) (fun i => if (s.jt i).setsV then s.vs v i else (d.joints i).jv) 1 (catCore s d q v) := by
  have hp := h.par
  unfold catCore
  obtain ⟨F, eM, ef, ejv⟩ := catFwd_ok h hq v (d := { d with
    v := upd d.v 0 0, a := upd d.a 0 0, h := upd d.h 0 0, a_gf := upd d.a_gf 0 (-s.grav), oYcrb := upd d.oYcrb 0 0 })
    (upd_self d.oYcrb 0 0) (upd_self d.a 0 0) (upd_self d.a_gf 0 _) (upd_self d.h 0 0)
  dsimp only
  generalize fwd (catFwd s q v) s.n _ = D at F eM ef ejv
  have c0 : CWB s q D.M s.n D := by
    have := crbaWorldBwd_ok h hcm hm (q := q) (d := D) ⟨F.tv.pl, F.tv.J, F.Y, F.Y0⟩
    refine ⟨F.tv.J, ?_, ?_, ?_, ?_, fun i _ _ _ => by omega, fun i _ _ _ => by omega, ?_⟩
    · intro i hi
      rcases Nat.eq_zero_or_pos i with rfl | h1
      · rw [F.Y0]; exact Or.inl rfl
      · rw [F.Y i h1 hi]; exact hm i h1 hi
    · intro i h1 hi
      rw [filter_eq_empty_iff.2, sum_empty, add_zero]
      · show (D.oYcrb i).matrix = _
        rw [F.Y i h1 hi]; rfl
      · intro c hc'; have := (mem_kids.1 hc').1.2; omega
    · rw [filter_eq_empty_iff.2, sum_empty, F.Y0]
      · ext <;> simp [Inertia.matrix, M3.alphaSkew, Sym3.subAlphaSkewSquare, Sym3.matrix]
      · intro c hc'; have := (mem_kids.1 hc').1.2; omega
    · rw [filter_eq_empty_iff.2, sum_empty, F.Y0]
      · rfl
      · intro c hc'; have := (mem_kids.1 hc').1.2; omega
    · intro i _ _ k' _ j _ _ _ l _; rfl
  rw [eM] at c0
  dsimp only at ef
  apply bwd_ind (step := catBwd s) (P := fun k (e : Data K) => CatB s q v d.M (d.f 0)
    (fun i => if (s.jt i).setsV then s.vs v i else (d.joints i).jv) k e) hp.1
  · refine ⟨F.tv, ejv, F.acc, c0, YB.start hm F.Y0 F.Y, PAcc.start' F.dY, RAcc.start _ ?_, RAcc.start _ ?_, ?_,
      fun i _ _ _ => by omega, fun i _ _ _ => by omega, fun i _ _ _ => by omega, fun i _ _ _ => by omega,
      fun i _ _ _ => by omega⟩
    · intro i hi
      rcases Nat.eq_zero_or_pos i with rfl | h1
      · rw [if_pos rfl, F.h0]
      · rw [if_neg (by omega), F.h i h1 hi]
        unfold Sys.oh
        rw [SE3.actInvF_actF (s.oM_valid hp hq i hi)]
    · intro i hi
      rcases Nat.eq_zero_or_pos i with rfl | h1
      · rw [if_pos rfl, ef]
      · rw [if_neg (by omega), F.f i h1 hi]
        unfold Sys.ofg
        rw [SE3.actInvF_actF (s.oM_valid hp hq i hi)]
    · intro i h1 hi
      rw [filter_eq_empty_iff.2, sum_empty, add_zero]
      · exact F.f i h1 hi
      · intro c hc'; have := (mem_kids.1 hc').1.2; omega
  · intro i e h1 hi ih
    exact ih.step h hcm hq h1 hi

/-- the torque vector written by segments -/
theorem CatB.nle_power (h : s.Packed) {q v : ℕ → K} {M0 : ℕ → ℕ → K} {f0 : Force K}
    {jv : ℕ → ℕ → K} {d : Data K} (hd : CatB s q v M0 f0 jv 1 d) (w : ℕ → K) :
    s.dotv w d.nle = ∑ i ∈ Ico 1 s.n, (s.V q w i).dot (s.F (-s.grav) q v (fun _ => 0) i) := by
  have key : FT s q (s.F (-s.grav) q v (fun _ => 0)) 1 d.f
      (fun r => ∑ i ∈ Ico 1 s.n, torqueAt (s.iv i) (s.jnv i) (s.S q i) (d.f i) r) := ⟨hd.fp, fun r => rfl⟩
  rw [← key.power h.wf w]
  unfold Sys.dotv
  apply sum_congr rfl
  intro r hr
  congr 1
  obtain ⟨i, k, hi1, hi, hk, rfl⟩ := h.cover (mem_range.1 hr)
  dsimp only
  rw [hd.nle i hi1 hi1 hi k hk, sum_eq_single i]
  · unfold torqueAt
    rw [if_pos ⟨by omega, by omega⟩, Nat.add_sub_cancel_left]
  · intro j hj hji
    unfold torqueAt
    rw [if_neg]
    rintro ⟨a, b⟩
    have hj := mem_Ico.1 hj
    have := (h.inj hi1 hi hj.1 hj.2 hk (l := s.iv i + k - s.iv j) (by omega) (by omega)).1
    exact hji this.symm
  · intro hn; exact absurd (mem_Ico.2 ⟨hi1, hi⟩) hn

end Pin
