import Verif.Algo.PvPasses
import Verif.Spec.Pv
import Verif.Props.Delassus

/-!
# The equations that `pv` solves
-/

namespace Pin
open Finset
set_option linter.unusedSectionVars false
variable {K : Type*} [Field K] {s : Sys K} {q v tau : ℕ → K} {ms : ℕ → RCM K} {nc : ℕ}

theorem contactRow_eq (ms : ℕ → RCM K) (k : ℕ) : contactRow ms k = pvOwn ms k (ms k).j1 := by
  have : ∀ n j, (∑ i ∈ range n, if (ms i).j1 = j then (ms i).type.dim else 0) = pvOwn ms n j := by
    intro n j
    induction n with
    | zero => rfl
    | succ n ih =>
      rw [sum_range_succ, ih, pvOwn_succ]
      by_cases h : (ms n).j1 = j
      · subst h; rw [if_pos rfl, upd_self]
      · rw [if_neg h, upd_ne _ _ (Ne.symm h), add_zero]
  exact this k _

theorem pvCol_dot (m : RCM K) (V : Motion K) (r : ℕ) : V.dot (m.pvCol r) = (m.P1.actInv V).row r := by
  unfold RCM.pvCol
  rw [M6.dot_rowF, SE3.toActionMatrixInverse_mul]

/-- the state after the backward pass -/
theorem pv_backward (h : s.Packed) {y0 : PvData K} (hr : PvReady s ms nc y0) (hs : PvSet s q v tau y0) :
    let B := bwd (pvBwd s) s.n y0
    ∃ G : ℕ → M6 K × Force K,
      IsAcc s.par s.n (artT s (locP s q v) tau) (fun i => ((s.Y i).matrix, s.bf q v (fun _ => 0) i)) G ∧
      (∀ i, 1 ≤ i → i < s.n → ArtAt s (locP s q v) tau i (G i) (locπ B.data)) ∧
      (∀ i, 1 ≤ i → i < s.n → B.data.liMi i = s.X q i ∧ (B.data.joints i).S = s.S q i ∧ B.bias i = s.bias q v i) ∧
      (B.dim = y0.dim ∧ B.pind = y0.pind ∧ B.data.a 0 = -s.grav ∧ B.data.a_gf 0 = -s.grav) ∧
      PvReady s ms nc B ∧
      PvAcc s (locP s q v) (fun i => (G i).1) (pvOwn ms nc) y0.dim y0.pind y0.KA B.KA (fun i => lowSym (B.LA i)) ∧
      (∀ j < s.n, ∀ c < pvOwn ms nc j, B.lA j c = y0.lA j c) ∧
      (∀ i, 1 ≤ i → i < s.n → ∀ c < y0.dim i, ∀ l, B.KAS i c l = (s.S q i l).dot (B.KA i c)) ∧
      (∀ i, 1 ≤ i → i < s.n → ∀ c < y0.dim i, B.lA (s.par i) (y0.pind i + c) = B.lA i c
        + (comb (s.S q i) (s.jnv i) (fun k => ∑ l ∈ range (s.jnv i), pvDi s (locP s q v) (fun i => (G i).1) i k l
          * (B.data.u (s.iv i + l) - (s.bias q v i).dot (((G i).1).mulMF (s.S q i l)))) + s.bias q v i).dot (B.KA i c)) := by
  intro B
  obtain ⟨o, al⟩ := hs.al
  have hY : ∀ i, 1 ≤ i → i < s.n → y0.data.Yaba i = (s.Y i).matrix := al.Y
  have hli : ∀ i, 1 ≤ i → i < s.n → y0.data.liMi i = s.X q i ∧ (y0.data.joints i).S = s.S q i := al.li
  have hb : ∀ i, 1 ≤ i → i < s.n → y0.bias i = s.bias q v i := fun i h1 hi => by
    have := al.a i h1 hi
    change upd y0.bias 0 (-s.grav) i = _ at this
    rwa [upd_ne _ _ (by omega)] at this
  obtain ⟨⟨k1, k2, k3, k4, k5, k6, k7, k8⟩, ow, cr, at'⟩ := pvBwd_ok h hr.slots
    (fun i h1 hi => by rw [hY i h1 hi]; exact (s.Y i).matrix_symm)
  obtain ⟨-, b2⟩ := bwd_proj (step := pvBwd s) (step' := absBwd s (locP s q v)) (n := s.n) (d := y0) (fun x => locπ x.data)
    (fun e => e.data.liMi = y0.data.liMi ∧ (∀ j, (e.data.joints j).S = (y0.data.joints j).S) ∧ e.bias = y0.bias)
    ⟨rfl, fun _ => rfl, rfl⟩ (by
      rintro i e h1 hi ⟨a, b, c⟩
      obtain ⟨a', b', c1, -⟩ := pvBwd_keep (s := s) i e
      refine ⟨⟨a'.trans a, fun j => (b' j).trans (b j), c1.trans c⟩, ?_⟩
      have := h.par.2 i h1 hi
      exact pvBwd_proj (by omega) (by rw [a]; exact (hli i h1 hi).1) (by rw [b]; exact (hli i h1 hi).2)
        (by rw [c]; exact hb i h1 hi))
  obtain ⟨G, g1, g2⟩ := absBwd_ok (P := locP s q v) h (I0 := fun i => (s.Y i).matrix) (p := s.bf q v (fun _ => 0)) (t := tau)
    (st := locπ y0.data) hY al.f al.u
  rw [← b2] at g2
  change ∀ i, 1 ≤ i → i < s.n → ArtAt s (locP s q v) tau i (G i) (locπ B.data) at g2
  have hsym := artI_symm h (artT_fst g1) (fun i _ _ => (s.Y i).matrix_symm) (fun i A hA => SE3.actOn_symm _ hA)
  have hD : ∀ i, 1 ≤ i → i < s.n → ∀ k l, (B.data.joints i).Dinv k l = pvDi s (locP s q v) (fun i => (G i).1) i k l := by
    intro i h1 hi k l
    exact congrFun (congrFun (g2 i h1 hi).Dinv k) l
  have hU : ∀ i, 1 ≤ i → i < s.n → ∀ k, (B.data.joints i).UDinv k = pvUd s (locP s q v) (fun i => (G i).1) i k := by
    intro i h1 hi k
    exact congrFun (g2 i h1 hi).UDinv k
  have hKAS : ∀ i, 1 ≤ i → i < s.n → ∀ c < y0.dim i, ∀ l, B.KAS i c l = (s.S q i l).dot (B.KA i c) := by
    intro i h1 hi c hc l
    rw [← (hli i h1 hi).2]
    exact (at' i h1 hi).kas c hc l
  have hrB : PvReady s ms nc B := by
    refine ⟨?_, ?_, ?_⟩
    · change Slots _ _ _ (bwd (pvBwd s) s.n y0).dim (bwd (pvBwd s) s.n y0).pind
      rw [k4, k5]; exact hr.slots
    · intro k hk r hr'
      have hrow := pvOwn_row (ms := ms) hk hr'
      by_cases hjn : (ms k).j1 < s.n
      · rw [← hr.KA k hk r hr']; exact (ow _ hjn _ hrow).1
      · have : ∀ i, ¬ i < s.n → B.KA i = y0.KA i := by
          intro i hi
          refine bwd_ind (step := pvBwd s) (n := s.n) (d := y0) (P := fun _ (z : PvData K) => z.KA i = y0.KA i) h.par.1 rfl ?_
          intro j z h1 hj e
          have hpj := h.par.2 j h1 hj
          obtain ⟨-, -, -, -, c5, -⟩ := pvBwd_con (s := s) (i := j) z (by omega)
          rw [c5, upd_ne _ _ (by omega)]; exact e
        rw [this _ hjn]; exact hr.KA k hk r hr'
    · intro i hi r hr' c hc hne
      change ∃ k, _ ∧ _ ∧ ((bwd (pvBwd s) s.n y0).pind k ≤ r ∧ r < (bwd (pvBwd s) s.n y0).pind k
        + (bwd (pvBwd s) s.n y0).dim k) ∧ (bwd (pvBwd s) s.n y0).pind k ≤ c ∧ c < (bwd (pvBwd s) s.n y0).pind k
        + (bwd (pvBwd s) s.n y0).dim k
      change r < (bwd (pvBwd s) s.n y0).dim i at hr'
      rw [k4] at hr' ⊢
      rw [k5]
      by_contra hno
      have := cr i hi r c hc hno
      change B.LA i r c = _ at this
      rw [this] at hne
      exact hno (hr.LA i hi r hr' c hc hne)
  refine ⟨G, g1, g2, fun i h1 hi => ⟨?_, ?_, ?_⟩, ⟨k4, k5, ?_, ?_⟩, hrB, ⟨fun i hi c hc => (ow i hi c hc).1, ?_, ?_, ?_⟩,
    fun j hj c hc => (ow j hj c hc).2, hKAS, ?_⟩
  · exact (congrFun k1 i).trans (hli i h1 hi).1
  · exact (k2 i).trans (hli i h1 hi).2
  · exact (congrFun k3 i).trans (hb i h1 hi)
  · exact (congrFun k6 0).trans hs.a0
  · exact (congrFun k7 0).trans hs.agf0
  · intro i h1 hi c hc
    refine ((at' i h1 hi).ka c hc).trans ?_
    rw [(hli i h1 hi).1]
    change (s.X q i).actF _ = (s.X q i).actF _
    congr 2
    apply sum_congr rfl
    intro k _
    change B.KAS i c k • (B.data.joints i).UDinv k = _
    rw [hKAS i h1 hi c hc k, hU i h1 hi k]
    rfl
  · intro i h1 hi r hr' c hc
    have key : ∀ r < y0.dim i, ∀ c ≤ r, B.LA (s.par i) (y0.pind i + r) (y0.pind i + c) = B.LA i r c
        + ∑ k ∈ range (s.jnv i), (s.S q i k).dot (B.KA i r)
          * ∑ l ∈ range (s.jnv i), pvDi s (locP s q v) (fun i => (G i).1) i k l * (s.S q i l).dot (B.KA i c) := by
      intro r hr' c hc
      refine ((at' i h1 hi).la r hr' c hc).trans ?_
      change B.LA i r c + _ = _
      congr 1
      apply sum_congr rfl
      intro k _
      change B.KAS i r k * ∑ l ∈ range (s.jnv i), (B.data.joints i).Dinv k l * B.KAS i c l = _
      rw [hKAS i h1 hi r hr' k]
      congr 1
      apply sum_congr rfl
      intro l _
      rw [hKAS i h1 hi c (by omega) l, hD i h1 hi]
    change lowSym (B.LA (s.par i)) (y0.pind i + r) (y0.pind i + c) = lowSym (B.LA i) r c
      + ∑ k ∈ range (s.jnv i), (s.S q i k).dot (B.KA i r)
        * ∑ l ∈ range (s.jnv i), pvDi s (locP s q v) (fun i => (G i).1) i k l * (s.S q i l).dot (B.KA i c)
    unfold lowSym
    by_cases hcr : c ≤ r
    · rw [if_pos (by omega), if_pos hcr, key r hr' c hcr]
    · rw [if_neg (by omega), if_neg hcr, key c hc r (by omega)]
      congr 1
      simp only [mul_sum]
      rw [sum_comm]
      refine sum_congr rfl fun k hk => sum_congr rfl fun l hl => ?_
      have : pvDi s (locP s q v) (fun i => (G i).1) i l k = pvDi s (locP s q v) (fun i => (G i).1) i k l :=
        invBlock_symm (fun a _ b _ => dMat_symm (hsym i h1 hi) a b) (mem_range.1 hl) (mem_range.1 hk)
      rw [this]; ring
  · intro i hi r hr' c hc hne
    have key := hrB.LA
    change ∀ i < s.n, ∀ r < (bwd (pvBwd s) s.n y0).dim i, ∀ c ≤ r, B.LA i r c ≠ 0 → ∃ k, _ ∧ _ ∧
        ((bwd (pvBwd s) s.n y0).pind k ≤ r ∧ r < (bwd (pvBwd s) s.n y0).pind k
        + (bwd (pvBwd s) s.n y0).dim k) ∧ (bwd (pvBwd s) s.n y0).pind k ≤ c ∧ c < (bwd (pvBwd s) s.n y0).pind k
        + (bwd (pvBwd s) s.n y0).dim k at key
    rw [k4, k5] at key
    unfold lowSym at hne
    by_cases hcr : c ≤ r
    · rw [if_pos hcr] at hne
      exact key i hi r hr' c hcr hne
    · rw [if_neg hcr] at hne
      obtain ⟨k, a, b, c1, d1⟩ := key i hi c hc r (by omega) hne
      exact ⟨k, a, b, d1, c1⟩
  · intro i h1 hi c hc
    refine ((at' i h1 hi).lA c hc).trans ?_
    rw [(hli i h1 hi).2, hb i h1 hi]
    change B.lA i c + _ = _
    congr 4
    funext k
    apply sum_congr rfl
    intro l _
    change (B.data.joints i).Dinv k l * (B.data.u (s.iv i + l) - (s.bias q v i).dot ((B.data.joints i).U l)) = _
    rw [hD i h1 hi, show (B.data.joints i).U l = ((G i).1).mulMF (s.S q i l) from congrFun (g2 i h1 hi).U l]

/-! ## the power of contact forces is linear in the velocity -/

/-- a linear functional of vectors of size `n`, in coordinates -/
theorem functional_coord (n : ℕ) (L : (ℕ → K) → K) (ha : ∀ w w', L (fun r => w r + w' r) = L w + L w')
    (hm : ∀ c w, L (fun r => c * w r) = c * L w) (hc : ∀ w w', (∀ r < n, w r = w' r) → L w = L w') (w : ℕ → K) :
    L w = ∑ r ∈ range n, w r * L (Sys.unit r) := by
  have key : ∀ m, L (fun r => if r < m then w r else 0) = ∑ r ∈ range m, w r * L (Sys.unit r) := by
    intro m
    induction m with
    | zero =>
      have := hm 0 (fun _ => 0)
      simp only [zero_mul] at this
      simpa using this
    | succ m ih =>
      have : (fun r => if r < m + 1 then w r else 0)
          = fun r => (fun r => if r < m then w r else 0) r + (fun r => w m * Sys.unit m r) r := by
        funext r
        simp only [Sys.unit]
        by_cases h1 : r < m
        · simp [h1, Nat.lt_succ_of_lt h1, Nat.ne_of_lt h1]
        · by_cases h2 : r = m
          · subst h2; simp
          · have : ¬ r < m + 1 := by omega
            simp [h1, h2, this]
      rw [this, ha, ih, hm, sum_range_succ]
  rw [← key]
  exact hc _ _ fun r hr => by simp [hr]

theorem conPower_coord (h : s.Packed) (hj : ∀ k < nc, (ms k).j1 < s.n) (f : ℕ → ℕ → K) (w : ℕ → K) :
    s.conPower q ms nc f w = s.dotv w (fun r => s.conPower q ms nc f (Sys.unit r)) := by
  refine functional_coord s.nv (s.conPower q ms nc f) (fun w w' => ?_) (fun c w => ?_) (fun w w' e => ?_) w
  · unfold Sys.conPower Sys.conVel
    rw [← sum_add_distrib]
    refine sum_congr rfl fun k hk => ?_
    rw [← sum_add_distrib]
    refine sum_congr rfl fun r _ => ?_
    rw [s.V_add h.par q w w' _ (hj k (mem_range.1 hk)), SE3.actInv_add, Motion.row_add, add_mul]
  · unfold Sys.conPower Sys.conVel
    rw [mul_sum]
    refine sum_congr rfl fun k hk => ?_
    rw [mul_sum]
    refine sum_congr rfl fun r _ => ?_
    rw [s.V_smul h.par q c w _ (hj k (mem_range.1 hk)), SE3.actInv_smul, Motion.row_smul, mul_assoc]
  · unfold Sys.conPower Sys.conVel
    refine sum_congr rfl fun k hk => sum_congr rfl fun r _ => ?_
    rw [s.V_congr h.wf e _ (hj k (mem_range.1 hk))]

/-- the acceleration of a contact is affine in the joint acceleration -/
theorem accIn_affine (h : s.Packed) (hq : s.At q) (m : RCM K) (h1 : 1 ≤ m.j1) (hj : m.j1 < s.n) (d d' : Data K) (v a b : ℕ → K) :
    m.accIn (forwardKinematicsA s d q v (fun r => a r + b r)) = s.conVel q m a + m.accIn (forwardKinematicsA s d' q v b) := by
  obtain ⟨-, v1, a1⟩ := fk2_ok h.par d hq v (fun r => a r + b r)
  obtain ⟨-, v2, a2⟩ := fk2_ok h.par d' hq v b
  have e1 := a1 _ hj
  have e2 := a2 _ hj
  rw [s.A_eq h.par _ _ _ _ _ hj, s.V_add h.par q a b _ hj, add_assoc, ← s.A_eq h.par _ _ _ b _ hj, ← e2] at e1
  have e3 : (forwardKinematicsA s d q v (fun r => a r + b r)).v m.j1 = (forwardKinematicsA s d' q v b).v m.j1 :=
    (v1 _ h1 hj).1.trans (v2 _ h1 hj).1.symm
  unfold RCM.accIn Sys.conVel
  cases m.type with
  | CONTACT_6D =>
    dsimp only
    unfold getFrameAcceleration inFrameAt
    rw [e1, SE3.actInv_add]
  | CONTACT_3D =>
    dsimp only
    unfold getFrameClassicalAcceleration getFrameVelocity getFrameAcceleration inFrameAt
    rw [e1, e3, SE3.actInv_add]
    ext <;> simp <;> ring

/-- the acceleration that a row of a contact asks for -/
theorem pv_row [DecidableEq K] (h : s.Packed) (hq : s.At q) (hg : s.grav.ang = 0) {lg : SE3 K → Motion K} {Y : PvData K}
    (hs : PvSet s q v tau Y) {ks : ℕ → Corr K} {cd : ℕ → PvCon K} {k r : ℕ} (h1 : 1 ≤ (ms k).j1) (hj : (ms k).j1 < s.n)
    (hr : r < (ms k).type.dim) (hK : Y.KA (ms k).j1 (pvOwn ms k (ms k).j1 + r) = (ms k).pvCol r) (x : ℕ → K) (d' : Data K) :
    (s.A (-s.grav) q v x (ms k).j1).dot ((ms k).pvCol r) + pvVal lg ms ks Y cd k r
      = ((ms k).accIn (forwardKinematicsA s d' q v x)).row r - (pvFeedback lg (ms k) (ks k) (cd k)).aerr.row r := by
  obtain ⟨hfk1, hfk2, hfk3⟩ := fk2_ok h.par d' hq v x
  have hAk : s.A (-s.grav) q v x (ms k).j1 = s.A 0 q v x (ms k).j1 + ⟨(s.oM q (ms k).j1).rot.tr.mulVec (-s.grav).lin, 0⟩ := by
    rw [s.A_base h.par _ _ _ _ _ hj, s.base_eq h.par hq _ _ hj]
    congr 1
    have : (-s.grav).ang = 0 := by
      change -s.grav.ang = 0
      rw [hg, neg_zero]
    ext <;> simp [SE3.actInv, this, M3.tr, M3.mulVec, V3.cross]
  have hv : Y.data.v (ms k).j1 = s.V q v (ms k).j1 := by
    obtain ⟨o, al⟩ := hs.al
    exact al.vel _ h1 hj
  have hFa := hfk3 _ hj
  have hFv := (hfk2 _ h1 hj).1
  rw [hAk, Motion.add_dot, pvCol_dot]
  unfold pvVal
  rw [hK, hs.agf _ hj, hv]
  have egr : (⟨(s.oM q (ms k).j1).rot.tr.mulVec (-s.grav).lin, 0⟩ : Motion K).dot ((ms k).pvCol r)
      = ((ms k).pvCol r).lin.dot ((s.oM q (ms k).j1).rot.tr.mulVec (-s.grav).lin) := by
    simp [Motion.dot, V3.dot, mul_comm]
  rw [egr]
  unfold RCM.accIn
  cases ht : (ms k).type with
  | CONTACT_6D =>
    dsimp only
    unfold getFrameAcceleration inFrameAt
    rw [hFa]
    ring
  | CONTACT_3D =>
    dsimp only
    unfold getFrameClassicalAcceleration getFrameVelocity getFrameAcceleration inFrameAt
    rw [hFa, hFv]
    rw [ht] at hr
    have hr3 : r < 3 := hr
    interval_cases r <;> simp [Motion.row] <;> ring

section order
variable [LinearOrder K]

/-- a call keeps what the next one needs -/
theorem pv_ready (h : s.Packed) (hj : ∀ k < nc, 1 ≤ (ms k).j1) (hq : s.At q) {lg : SE3 K → Motion K} {x : PvData K}
    (hr : PvReady s ms nc x) (ks : ℕ → Corr K) (cd : ℕ → PvCon K) (st : ProxSet K) :
    PvReady s ms nc (pv lg s x q v tau ms ks nc cd st).1 := by
  obtain ⟨a1, a2, -, -⟩ := pvSetup_ok (lg := lg) h hr hq v tau ks cd
  obtain ⟨G, -, -, -, -, hB, -⟩ := pv_backward h a1 a2
  unfold pv
  dsimp only
  set B := bwd (pvBwd s) s.n (pvSetup lg s x q v tau ms ks nc cd).1
  obtain ⟨e1, e2, e3, e4, e5⟩ := pvSolve_keep st B
  have hE := (pvFwd2_ok h (pvSolve st B)).keep
  set E := fwd (pvFwd2 s) s.n (pvSolve st B)
  have f1 : E.dim = B.dim := by rw [hE]; exact e1
  have f2 : E.pind = B.pind := by rw [hE]; exact e2
  have f3 : E.KA = B.KA := by rw [hE]; exact e3
  have f4 : E.LA = (pvSolve st B).LA := by rw [hE]
  refine ⟨by rw [f1, f2]; exact hB.slots, by rw [f3]; exact hB.KA, fun i hi r hr' c hc hne => ?_⟩
  rw [f1] at hr' ⊢
  rw [f2]
  rw [f4] at hne
  by_cases hi0 : i = 0
  · subst hi0
    by_cases hrc : r = c
    · subst hrc
      rcases hB.slots.cover 0 hi r hr' with e | ⟨k, ⟨k1, k2⟩, k3, k4, k5⟩
      · rw [pvOwn_zero hj] at e; omega
      · exact ⟨k, ⟨k1, k2⟩, k3, ⟨k4, k5⟩, k4, k5⟩
    · rw [e5 r c hrc] at hne
      exact hB.LA 0 hi r hr' c hc hne
  · rw [e4 i r c hi0] at hne
    exact hB.LA i hi r hr' c hc hne

theorem PvReach.ready (h : s.Packed) (hf : PvFit s ms nc) {x : PvData K} (hx : PvReach s ms nc x) : PvReady s ms nc x := by
  induction hx with
  | init x => exact initPvSolver_ready h.par x
  | call lg q v tau ks cd st _ hq ih => exact pv_ready h (fun k hk => (hf k hk).2.1) hq ih ks cd st

variable [IsStrictOrderedRing K] [HasEps K]

/-- the equations of one call, `p` the multipliers of the turn before the last -/
theorem pv_core (h : s.Packed) (hf : PvFit s ms nc) (hq : s.At q) (hy : s.Heavy q) (hg : s.grav.ang = 0)
    {lg : SE3 K → Motion K} {x : PvData K} (hr : PvReady s ms nc x) (ks : ℕ → Corr K) (cd : ℕ → PvCon K) {st : ProxSet K}
    (hmu : 0 < st.mu ∨ st.mu = 0 ∧ s.ConIndep q ms nc) (hn : 1 ≤ st.maxIter) (d d' : Data K) :
    let y := pv lg s x q v tau ms ks nc cd st
    let F := forwardKinematicsA s d' q v y.1.data.ddq
    let off := fun k => rootOff s.par y.1.pind (ms k).j1 + contactRow ms k
    (∀ w, s.dotv w (rnea s d q v y.1.data.ddq).tau = s.dotv w tau - s.conPower q ms nc (pvForce ms y.1) w) ∧
    (∀ k < nc, ∀ r < (ms k).type.dim, pvForce ms y.1 k r = y.1.lamA 0 (off k + r) ∧ off k + r < y.1.dim 0) ∧
    (∀ f : ℕ → K, ∑ r ∈ range (y.1.dim 0), f r = ∑ k ∈ range nc, ∑ r ∈ range (ms k).type.dim, f (off k + r)) ∧
    (∀ k < nc, (y.2 k).aerr = (pvFeedback lg (ms k) (ks k) (cd k)).aerr) ∧
    ∃ p : ℕ → K, (0 < nc → y.1.absRes = infNorm (y.1.dim 0) (fun r => p r - y.1.lamA 0 r)) ∧
      ∀ k < nc, ∀ r < (ms k).type.dim, ((ms k).accIn F).row r - (y.2 k).aerr.row r
        = st.mu * (pvForce ms y.1 k r - p (off k + r)) := by
  obtain ⟨a1, a2, a3, a4⟩ := pvSetup_ok (lg := lg) h hr hq v tau ks cd
  set Y := pvSetup lg s x q v tau ms ks nc cd with hY
  obtain ⟨G, g1, g2, b1, ⟨b2, b3, b4, b5⟩, hB, hK, b6, b7, b8⟩ := pv_backward h a1 a2
  set B := bwd (pvBwd s) s.n Y.1 with hBd
  set P := locP s q v with hP
  set A : ℕ → M6 K := fun i => (G i).1 with hA
  have hj : ∀ k < nc, (ms k).j1 < s.n := fun k hk => (hf k hk).2.2.1
  have hown0 : pvOwn ms nc 0 = 0 := pvOwn_zero fun k hk => (hf k hk).2.1
  have hslots := a1.slots
  have hTf : ∀ i f g, P.Tf i (f + g) = P.Tf i f + P.Tf i g := fun i f g => SE3.actF_add _ _ _
  have hTc : ∀ i (c : K) f, P.Tf i (c • f) = c • P.Tf i f := fun i c f => SE3.actF_smul _ _ _
  have hI0 : ∀ i, 1 ≤ i → i < s.n → ((s.Y i).matrix).IsSymm := fun i _ _ => (s.Y i).matrix_symm
  have hTs : ∀ i, ∀ A : M6 K, A.IsSymm → (P.TM i A).IsSymm := fun i A hA => SE3.actOn_symm _ hA
  have hTM : ∀ i, ∀ A : M6 K, A.IsSymm → ∀ v, (P.TM i A).mulMF v = P.Tf i (A.mulMF (P.Um i v)) :=
    fun i A hA v => SE3.actOn_mulMF _ hA v
  have hUT : ∀ i v f, (P.Um i v).dot f = v.dot (P.Tf i f) := fun i v f => SE3.dot_actInv _ _ _
  have hAcc := artT_fst g1
  have hsym := artI_symm h hAcc hI0 hTs
  have hdef : s.MassDef q := fun w e r hr' => by
    by_contra hne
    exact absurd e (Sys.massForm_pos h hy.body hy.cols hy.arm w ⟨r, hr', hne⟩).ne'
  have hD := art_regular_local (v := v) h hdef hAcc
  -- rows of contacts
  have hrows : ∀ g : ℕ → ℕ → K, ∑ i ∈ Ico 1 s.n, ∑ c ∈ range (pvOwn ms nc i), g i c
      = ∑ k ∈ range nc, ∑ r ∈ range (ms k).type.dim, g (ms k).j1 (pvOwn ms k (ms k).j1 + r) := by
    intro g
    rw [← pvOwn_sum hj g, range_eq_Ico, sum_eq_sum_Ico_succ_bot (by have := h.par.1; omega : 0 < s.n), hown0, range_zero,
      sum_empty, zero_add]
  have hpow : ∀ (w : ℕ → K) (f : ℕ → ℕ → K), ∑ i ∈ Ico 1 s.n, ∑ c ∈ range (pvOwn ms nc i), f i c * (s.V q w i).dot (Y.1.KA i c)
      = s.conPower q ms nc (fun k r => f (ms k).j1 (pvOwn ms k (ms k).j1 + r)) w := by
    intro w f
    rw [hrows]
    unfold Sys.conPower Sys.conVel
    refine sum_congr rfl fun k hk => sum_congr rfl fun r hr' => ?_
    rw [a1.KA k (mem_range.1 hk) r (mem_range.1 hr'), pvCol_dot, mul_comm]
  -- the matrix of the multipliers is regular
  have hreg : InvOk (B.dim 0) (lowSym (fun r c => B.LA 0 r c + if r = c ∧ r < B.dim 0 then st.mu else 0)) := by
    apply invOk_of_definite
    intro l hl
    obtain ⟨a, w, z0, z1, z2, z3⟩ := pv_root (P := P) h hslots hK hTf hTc hAcc hI0 hTs hTM hUT hD hown0 l
    have hVV : ∀ i, i < s.n → a i = s.V q w i := by
      intro i hi; refine Sys.joint_ind s h.par ?_ ?_ i hi <;> clear hi i
      · rw [z0, s.V_zero]
      · intro i h1 hi ih
        rw [z1 i h1 hi, ih, s.V_step h1 (h.par.2 i h1 hi)]; rfl
    have hmf : ∀ w', s.massForm q w' w = (∑ i ∈ Ico 1 s.n, (s.V q w' i).dot ((s.Y i).matrix.mulMF (a i)))
        + s.dotv w' (fun r => s.arm r * w r) := by
      intro w'
      unfold Sys.massForm
      congr 1
      apply sum_congr rfl
      intro i hi
      rw [mem_Ico] at hi
      rw [hVV i hi.2, Inertia.matrix_mulMF]
    have e1 : s.massForm q w w = ∑ r ∈ range (B.dim 0), l r * ∑ c ∈ range (B.dim 0), lowSym (B.LA 0) r c * l c := by
      rw [hmf, b2, ← z3]
      congr 1
      apply sum_congr rfl
      intro i hi
      rw [mem_Ico] at hi
      rw [← hVV i hi.2]
    have e2 : s.massForm q w w + st.mu * ∑ r ∈ range (B.dim 0), l r * l r = 0 := by
      rw [e1, ← hl, mul_sum, ← sum_add_distrib]
      apply sum_congr rfl
      intro r hr'
      have hrr := mem_range.1 hr'
      simp only [lowSym_add _ _ _ hrr, add_mul, sum_add_distrib, ite_mul, zero_mul]
      rw [sum_ite_eq, if_pos hr']
      ring
    have hm0 := Sys.massForm_nonneg h hy w
    have hs0 : 0 ≤ ∑ r ∈ range (B.dim 0), l r * l r := sum_nonneg fun _ _ => mul_self_nonneg _
    have hzero : s.massForm q w w = 0 := by
      have : 0 ≤ st.mu := by rcases hmu with e | ⟨e, -⟩ <;> linarith
      have := mul_nonneg this hs0
      linarith
    rcases hmu with hmu | ⟨-, hind⟩
    · have : ∑ r ∈ range (B.dim 0), l r * l r = 0 := by
        rw [hzero, zero_add] at e2
        rcases mul_eq_zero.1 e2 with e | e
        · exact absurd e hmu.ne'
        · exact e
      intro k hk
      have := (sum_eq_zero_iff_of_nonneg fun i _ => mul_self_nonneg (l i)).1 this k (mem_range.2 hk)
      exact mul_self_eq_zero.1 this
    · have hw0 := hdef w hzero
      have hc : ∀ w', s.conPower q ms nc (fun k r => l (rootOff s.par Y.1.pind (ms k).j1 + (pvOwn ms k (ms k).j1 + r))) w' = 0 := by
        intro w'
        have := z2 w' (s.V q w') (s.V_zero q w') (fun i h1 hi => s.V_step h1 (h.par.2 i h1 hi))
        rw [hpow w' (fun i c => l (rootOff s.par Y.1.pind i + c))] at this
        have e3 := hmf w'
        rw [this, Sys.massForm_congr_right h.wf (b := fun _ => 0) hw0, Sys.massForm_zero_right h.par] at e3
        linear_combination e3
      have hall := hind _ hc
      intro k hk
      rw [b2] at hk
      have e4 := hslots.root_sum h.par (fun r => if r = k then l k * l k else 0)
      rw [sum_ite_eq', if_pos (mem_range.2 hk), pvOwn_sum hj (fun i c => if rootOff s.par Y.1.pind i + c = k then l k * l k else 0)] at e4
      rw [← mul_self_eq_zero, e4]
      refine sum_eq_zero fun m hm => sum_eq_zero fun r hr' => ?_
      split
      · rename_i e
        rw [← e, hall m (mem_range.1 hm) r (mem_range.1 hr'), zero_mul]
      · rfl
  -- the multipliers
  set S := pvSolve st B with hS
  have hSk : S.data = B.data ∧ S.bias = B.bias ∧ S.dim = B.dim ∧ S.pind = B.pind ∧ S.KAS = B.KAS ∧ S.KA = B.KA := by
    by_cases hd : 0 < B.dim 0
    · have := (pvSolve_ok st hn B hd).1
      rw [hS, this]
      exact ⟨rfl, rfl, rfl, rfl, rfl, rfl⟩
    · rw [hS, pvSolve_none st B (by omega)]
      exact ⟨rfl, rfl, rfl, rfl, rfl, rfl⟩
  obtain ⟨s1, s2, s3, s4, s5, s6⟩ := hSk
  have hsol : ∃ p : ℕ → K, (0 < B.dim 0 → S.absRes = infNorm (B.dim 0) (fun r => p r - S.lamA 0 r)) ∧
      ∀ r < B.dim 0, B.lA 0 r + (-s.grav).dot (B.KA 0 r) - ∑ c ∈ range (B.dim 0), lowSym (B.LA 0) r c * S.lamA 0 c
        = st.mu * (S.lamA 0 r - p r) := by
    by_cases hd : 0 < B.dim 0
    · obtain ⟨-, p, e3, e4⟩ := pvSolve_ok st hn B hd
      refine ⟨p, fun _ => e4, fun r hr' => ?_⟩
      have := pvLlt_eq hreg (fun r => st.mu * p r + (B.lA 0 r + (B.data.a_gf 0).dot (B.KA 0 r))) hr'
      rw [← e3] at this
      rw [sum_congr rfl fun c _ => by rw [lowSym_add _ _ _ hr']] at this
      simp only [add_mul, sum_add_distrib, ite_mul, zero_mul] at this
      rw [sum_ite_eq, if_pos (mem_range.2 hr'), b5] at this
      linear_combination -this
    · exact ⟨fun _ => 0, fun e => absurd e hd, fun r hr' => by omega⟩
  obtain ⟨p, hp1, hp2⟩ := hsol
  have hE := pvFwd2_ok h S
  set E := fwd (pvFwd2 s) s.n S with hEd
  have hyE : pv lg s x q v tau ms ks nc cd st = (E, Y.2) := rfl
  rw [hyE]
  clear_value E S B Y
  have eE : E.dim = Y.1.dim ∧ E.pind = Y.1.pind ∧ E.absRes = S.absRes := by
    rw [hE.keep]
    exact ⟨s3.trans b2, s4.trans b3, rfl⟩
  obtain ⟨eE1, eE2, eE3⟩ := eE
  have hl : ∀ i, 1 ≤ i → i < s.n → ∀ c < Y.1.dim i, E.lamA i c = E.lamA (s.par i) (Y.1.pind i + c) := by
    intro i h1 hi c hc
    have := hE.lam i h1 hi c (by rw [s3, b2]; exact hc)
    rwa [s4, b3] at this
  have ha : ∀ i, 1 ≤ i → i < s.n →
      E.data.a i = P.c i + P.Um i (E.data.a (s.par i)) + comb (P.S i) (s.jnv i) (s.vs E.data.ddq i) ∧
      ∀ l < s.jnv i, E.data.ddq (s.iv i + l) = (∑ m ∈ range (s.jnv i), pvDi s P A i l m * B.data.u (s.iv i + m))
        - (P.c i + P.Um i (E.data.a (s.par i))).dot (pvUd s P A i l)
        - ∑ c ∈ range (Y.1.dim i), E.lamA i c * ∑ m ∈ range (s.jnv i), pvDi s P A i l m * (P.S i m).dot (B.KA i c) := by
    intro i h1 hi
    obtain ⟨q1, q2, q3⟩ := b1 i h1 hi
    have hDi : ∀ k l, (B.data.joints i).Dinv k l = pvDi s P A i k l := fun k l => congrFun (congrFun (g2 i h1 hi).Dinv k) l
    have hUi : ∀ k, (B.data.joints i).UDinv k = pvUd s P A i k := fun k => congrFun (g2 i h1 hi).UDinv k
    constructor
    · rw [hE.acc i h1 hi, s1, s2, q1, q2, q3]; rfl
    · intro l hl'
      rw [hE.ddq i h1 hi l hl', s1, s2, s3, s5, q1, q3, b2]
      simp only [hDi, hUi]
      congr 1
      refine sum_congr rfl fun c hc => ?_
      congr 1
      exact sum_congr rfl fun m _ => by rw [b7 i h1 hi c (mem_range.1 hc) m]; rfl
  have ha0 : E.data.a 0 = -s.grav := by rw [hE.a0, s1, b4]
  have hEA : ∀ i, i < s.n → E.data.a i = s.A (-s.grav) q v E.data.ddq i := by
    intro i hi; refine Sys.joint_ind s h.par ?_ ?_ i hi <;> clear hi i
    · rw [s.A_zero]; exact ha0
    · intro i h1 hi ih
      rw [s.A_step h1 (h.par.2 i h1 hi), ← ih]
      refine (ha i h1 hi).1.trans ?_
      change s.cb q v i + (s.V q v i).cross (s.jvel q v i) + (s.X q i).actInv _ + s.jvel q E.data.ddq i = _
      abel
  have hlam : ∀ k < nc, ∀ r < (ms k).type.dim, pvForce ms E k r = E.lamA (ms k).j1 (pvOwn ms k (ms k).j1 + r) := by
    intro k _ r _
    unfold pvForce
    rw [contactRow_eq]
  have hroot : ∀ n i, i ≤ n → i < s.n → ∀ c < Y.1.dim i, E.lamA i c = E.lamA 0 (rootOff s.par Y.1.pind i + c) := by
    intro n
    induction n with
    | zero => intro i hi _ c _; obtain rfl : i = 0 := by omega
              rw [Slots.off_zero, zero_add]
    | succ n ih =>
      intro i hi hin c hc
      by_cases h1 : 1 ≤ i
      · have hpi := h.par.2 i h1 hin
        have := hslots.hi i h1 hin
        rw [hl i h1 hin c hc, ih (s.par i) (by omega) (by omega) (Y.1.pind i + c) (by omega), Slots.off_step h1 hpi, add_assoc]
      · obtain rfl : i = 0 := by omega
        rw [Slots.off_zero, zero_add]
  have hcl : ∀ k < nc, ∀ r < (ms k).type.dim, pvOwn ms k (ms k).j1 + r < Y.1.dim (ms k).j1 := by
    intro k hk r hr'
    have h1 := pvOwn_row hk hr'
    have h2 := hslots.own_le _ (hj k hk)
    omega
  intro y F off
  refine ⟨fun w => ?_, fun k hk r hr' => ⟨?_, ?_⟩, fun f => ?_, a4, p, fun hnc => ?_, fun k hk r hr' => ?_⟩
  · have hdyn := pv_dyn (P := P) h hslots hK (lam := E.lamA) hl hTf hTc (t := tau) (I0 := fun i => (s.Y i).matrix)
      (p := s.bf q v (fun _ => 0)) (g := fun i => (G i).2) g1 hI0 hTs hTM hUT hD (a := E.data.a) (x := E.data.ddq) (by
        intro i h1 hi
        refine ⟨(ha i h1 hi).1, fun l hl' => ?_⟩
        rw [(ha i h1 hi).2 l hl']
        congr 2
        refine sum_congr rfl fun m hm => ?_
        congr 1
        exact (g2 i h1 hi).u m (mem_range.1 hm)) (w := w) (V := s.V q w) (s.V_zero q w)
      (fun i h1 hi => s.V_step h1 (h.par.2 i h1 hi))
    rw [hpow w E.lamA] at hdyn
    have e1 : s.conPower q ms nc (pvForce ms E) w
        = s.conPower q ms nc (fun k r => E.lamA (ms k).j1 (pvOwn ms k (ms k).j1 + r)) w := by
      unfold Sys.conPower
      exact sum_congr rfl fun k hk => sum_congr rfl fun r hr' => by rw [hlam k (mem_range.1 hk) r (mem_range.1 hr')]
    change s.dotv w (rnea s d q v E.data.ddq).tau = s.dotv w tau - s.conPower q ms nc (pvForce ms E) w
    rw [e1, hdyn, rnea_power h.wf d hq, add_sub_cancel_right]
    congr 1
    apply sum_congr rfl
    intro i hi
    rw [mem_Ico] at hi
    rw [hEA i hi.2, Inertia.matrix_mulMF]
    unfold Sys.F Sys.bf
    rw [sub_zero]
  · change pvForce ms E k r = E.lamA 0 (rootOff s.par E.pind (ms k).j1 + contactRow ms k + r)
    rw [hlam k hk r hr', hroot _ _ le_rfl (hj k hk) _ (hcl k hk r hr'), eE2, contactRow_eq, add_assoc]
  · change rootOff s.par E.pind (ms k).j1 + contactRow ms k + r < E.dim 0
    have := Slots.off_lt h.par hslots _ _ le_rfl (hj k hk)
    have := hcl k hk r hr'
    rw [eE1, eE2, contactRow_eq]
    omega
  · change ∑ r ∈ range (E.dim 0), f r = ∑ k ∈ range nc, ∑ r ∈ range (ms k).type.dim,
      f (rootOff s.par E.pind (ms k).j1 + contactRow ms k + r)
    rw [eE1, eE2, hslots.root_sum h.par, pvOwn_sum hj (fun i c => f (rootOff s.par Y.1.pind i + c))]
    exact sum_congr rfl fun k _ => sum_congr rfl fun r _ => by rw [contactRow_eq, add_assoc]
  · change E.absRes = infNorm (E.dim 0) (fun r => p r - E.lamA 0 r)
    have hd : 0 < B.dim 0 := by
      rw [b2]
      have h1 := hcl 0 hnc 0 (by cases (ms 0).type <;> simp [CType.dim])
      have := Slots.off_lt h.par hslots _ _ le_rfl (hj 0 hnc)
      omega
    rw [eE3, hp1 hd, eE1, b2, hE.lam0]
  · have hcon := pv_con (P := P) h.par hslots hK (lam := E.lamA) hl hUT hsym (u := B.data.u) (lA := B.lA) b8
      (a := E.data.a) (x := E.data.ddq) ha (ms k).j1 (hj k hk) (pvOwn ms k (ms k).j1 + r) (pvOwn_row hk hr')
    have hlt : rootOff s.par Y.1.pind (ms k).j1 + (pvOwn ms k (ms k).j1 + r) < B.dim 0 := by
      rw [b2]
      have := Slots.off_lt h.par hslots _ _ le_rfl (hj k hk)
      have := hcl k hk r hr'
      omega
    have e1 := hp2 _ hlt
    rw [ha0, ← b2, hE.lam0, e1, b6 _ (hj k hk) _ (pvOwn_row hk hr'), a3 k hk r hr', a1.KA k hk r hr'] at hcon
    change ((ms k).accIn F).row r - (Y.2 k).aerr.row r = st.mu * (pvForce ms E k r
      - p (rootOff s.par E.pind (ms k).j1 + contactRow ms k + r))
    rw [hlam k hk r hr', hroot _ _ le_rfl (hj k hk) _ (hcl k hk r hr'), eE2, contactRow_eq, add_assoc, hE.lam0, ← hcon,
      a4 k hk]
    rw [hEA _ (hj k hk), ← pv_row h hq hg a2 (hf k hk).2.1 (hj k hk) hr' (a1.KA k hk r hr') E.data.ddq d']
    ring

end order
end Pin
