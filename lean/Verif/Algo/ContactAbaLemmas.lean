import Verif.Algo.ContactAba
import Verif.Algo.AbaLemmas
import Verif.Algo.AbaPd
import Verif.Algo.PvLemmas

/-! # Lemmas on the passes of `contactABA` -/

namespace Pin
open Finset
variable {K : Type*} [Field K] {s : Sys K} {q v tau : ℕ → K}

theorem Sys.obias_eq (hp : ParOk s.par s.n) (hq : s.At q) (v : ℕ → K) {i : ℕ} (h1 : 1 ≤ i) (hi : i < s.n) :
    s.obias q v i = (s.oM q i).act (s.cb q v i + (s.V q v i).cross (s.jvel q v i)) := by
  have hv := s.oM_valid hp hq i hi
  unfold Sys.obias
  rw [SE3.act_add, Motion.act_cross hv]
  congr 1
  have e4 : (s.oM q i).act (s.jvel q v i) = s.oV q v i - s.oV q v (s.par i) := by
    rw [Sys.oV_step hp hq v h1 hi]; abel
  rw [e4]
  change _ = (s.oV q v i).cross _
  ext <;> simp [Motion.cross, V3.cross] <;> ring

/-- spatial acceleration of a joint in the world frame, from that of its parent -/
theorem Sys.oA_step (hp : ParOk s.par s.n) (hq : s.At q) (a0 : Motion K) (v a : ℕ → K) {i : ℕ} (h1 : 1 ≤ i) (hi : i < s.n) :
    (s.oM q i).act (s.A a0 q v a i) = s.obias q v i + (s.oM q (s.par i)).act (s.A a0 q v a (s.par i))
      + (s.oM q i).act (s.jvel q a i) := by
  have hpi := hp.2 i h1 hi
  have hXv := s.X_valid hq h1 hi
  have e : (s.oM q (s.par i)).act (s.A a0 q v a (s.par i))
      = (s.oM q i).act ((s.X q i).actInv (s.A a0 q v a (s.par i))) := by
    rw [s.oM_step h1 hpi, SE3.mul_act (s.oM_valid hp hq _ (by omega)), SE3.act_actInv hXv]
  rw [e, s.obias_eq hp hq v h1 hi, ← SE3.act_add, ← SE3.act_add, s.A_step h1 hpi]
  congr 1; abel

/-- the bias force of body `i` in the world frame, with its weight -/
def Sys.ofbg (s : Sys K) (q v : ℕ → K) (i : ℕ) : Force K :=
  (s.oV q v i).crossF ((s.oI q i).mulMF (s.oV q v i)) - (s.oI q i).mulMF s.grav

/-- after the first pass -/
structure CT1 (s : Sys K) (q v : ℕ → K) (k : ℕ) (x : CtData K) : Prop where
  oM : ∀ i, 1 ≤ i → i < k → x.data.oMi i = s.oM q i
  J : ∀ i, 1 ≤ i → i < k → ∀ l, l < s.jnv i → x.data.J (s.iv i + l) = s.Jc q i l
  vel : ∀ i, 1 ≤ i → i < k → x.data.ov i = s.oV q v i
  a : ∀ i, 1 ≤ i → i < k → x.data.oa i = s.obias q v i
  dr : ∀ i, 1 ≤ i → i < k → x.drift i = (s.oM q i).act (s.A 0 q v (fun _ => 0) i)
  Y : ∀ i, 1 ≤ i → i < k → x.data.oYaba i = s.oI q i
  f : ∀ i, 1 ≤ i → i < k → x.data.of i = s.ofbg q v i
  aug : ∀ i, 1 ≤ i → i < k → x.aug i = 0

theorem ctFwd1_proj {i : ℕ} (x : CtData K) (hpi : s.par i ≠ i) (hq : (s.jt i).Ok (s.qs q i)) :
    (ctFwd1 s q v i x).data.oMi = upd x.data.oMi i (if s.par i > 0 then x.data.oMi (s.par i) * s.X q i else s.X q i) ∧
    (ctFwd1 s q v i x).data.J
      = putSeg x.data.J (s.iv i) (s.jnv i) (fun k => ((ctFwd1 s q v i x).data.oMi i).act (s.S q i k)) ∧
    (ctFwd1 s q v i x).data.ov = upd x.data.ov i
      (if s.par i > 0 then ((ctFwd1 s q v i x).data.oMi i).act (s.jvel q v i) + x.data.ov (s.par i)
        else ((ctFwd1 s q v i x).data.oMi i).act (s.jvel q v i)) ∧
    (ctFwd1 s q v i x).data.oa = upd x.data.oa i
      (if s.par i > 0 then ((ctFwd1 s q v i x).data.oMi i).act (s.cb q v i)
        + (x.data.ov (s.par i)).cross ((ctFwd1 s q v i x).data.ov i)
        else ((ctFwd1 s q v i x).data.oMi i).act (s.cb q v i)) ∧
    (ctFwd1 s q v i x).drift = upd x.drift i
      (if s.par i > 0 then (ctFwd1 s q v i x).data.oa i + x.drift (s.par i) else (ctFwd1 s q v i x).data.oa i) ∧
    (ctFwd1 s q v i x).data.oYaba = upd x.data.oYaba i ((s.Y i).act ((ctFwd1 s q v i x).data.oMi i)).matrix ∧
    (ctFwd1 s q v i x).data.of = upd x.data.of i
      (((s.Y i).act ((ctFwd1 s q v i x).data.oMi i)).vxiv ((ctFwd1 s q v i x).data.ov i)
        - ((s.Y i).act ((ctFwd1 s q v i x).data.oMi i)).mul s.grav) ∧
    (ctFwd1 s q v i x).aug = upd x.aug i 0 := by
  have hvel : (s.jt i).v (s.qs q i) (s.vs v i) = s.jvel q v i := hq.vel _
  by_cases h : s.par i > 0
  · simp only [ctFwd1, h, if_true, upd_self, upd_ne _ _ hpi, Joint.calcV, hvel, Function.update_idem]
    refine ⟨?_, ?_, ?_, ?_, ?_, ?_, ?_, ?_⟩ <;> first | trivial | rfl
  · simp only [ctFwd1, h, if_false, upd_self, upd_ne _ _ hpi, Joint.calcV, hvel, Function.update_idem]
    refine ⟨?_, ?_, ?_, ?_, ?_, ?_, ?_, ?_⟩ <;> first | trivial | rfl

theorem CT1.step (h : s.Packed) (hq : s.At q) {i : ℕ} {x : CtData K} (h1 : 1 ≤ i) (hi : i < s.n) (ih : CT1 s q v i x) :
    CT1 s q v (i + 1) (ctFwd1 s q v i x) := by
  have hpi := h.par.2 i h1 hi
  have hne : s.par i ≠ i := by omega
  obtain ⟨e1, e2, e3, e4, e5, e6, e7, e8⟩ := ctFwd1_proj (v := v) x hne (hq.jt i h1 hi)
  have eo : (ctFwd1 s q v i x).data.oMi i = s.oM q i := by
    rw [e1, upd_self]; exact oM_code h.par h1 hi ih.oM
  have ev : (ctFwd1 s q v i x).data.ov i = s.oV q v i := by
    rw [e3, upd_self, eo, Sys.oV_step h.par hq v h1 hi]
    split
    · rw [ih.vel _ (by omega) hpi]
    · have : s.par i = 0 := by omega
      rw [this, Sys.oV_zero, add_zero]
  have ea : (ctFwd1 s q v i x).data.oa i = s.obias q v i := by
    simp only [e4, upd_self, ev, eo]
    unfold Sys.obias
    split
    · rw [ih.vel _ (by omega) hpi]
    · have : s.par i = 0 := by omega
      rw [this, Sys.oV_zero, Motion.zero_cross, add_zero]
  refine ⟨fun j hj1 hj => ?_, fun j hj1 hj l hl => ?_, fun j hj1 hj => ?_, fun j hj1 hj => ?_, fun j hj1 hj => ?_,
    fun j hj1 hj => ?_, fun j hj1 hj => ?_, fun j hj1 hj => ?_⟩
  · by_cases hji : j = i
    · subst hji; exact eo
    · simp only [e1, upd_ne _ _ hji]; exact ih.oM j hj1 (by omega)
  · rw [e2]
    by_cases hji : j = i
    · subst hji; rw [putSeg_at _ _ hl, eo]; rfl
    · rw [h.putSeg_ne' _ _ h1 hi hj1 (by omega) hl hji]
      exact ih.J j hj1 (by omega) l hl
  · by_cases hji : j = i
    · subst hji; exact ev
    · simp only [e3, upd_ne _ _ hji]; exact ih.vel j hj1 (by omega)
  · by_cases hji : j = i
    · subst hji; exact ea
    · simp only [e4, upd_ne _ _ hji]; exact ih.a j hj1 (by omega)
  · by_cases hji : j = i
    · subst hji
      rw [e5, upd_self, ea, s.oA_step h.par hq 0 v _ h1 hi, s.jvel_zero, SE3.act_zero, add_zero]
      split
      · rw [ih.dr _ (by omega) hpi]
      · have : s.par j = 0 := by omega
        rw [this, s.A_zero, SE3.act_zero, add_zero]
    · rw [e5, upd_ne _ _ hji]; exact ih.dr j hj1 (by omega)
  · by_cases hji : j = i
    · subst hji; simp only [e6, upd_self, eo]; rfl
    · simp only [e6, upd_ne _ _ hji]; exact ih.Y j hj1 (by omega)
  · by_cases hji : j = i
    · subst hji
      rw [e7, upd_self, ev, eo, Sys.ofbg, Inertia.vxiv_eq, Sys.oI, Inertia.matrix_mulMF, Inertia.matrix_mulMF]
    · rw [e7, upd_ne _ _ hji]; exact ih.f j hj1 (by omega)
  · by_cases hji : j = i
    · subst hji; rw [e8, upd_self]
    · rw [e8, upd_ne _ _ hji]; exact ih.aug j hj1 (by omega)

theorem ct1_ok (h : s.Packed) (hq : s.At q) (v : ℕ → K) (x : CtData K) : CT1 s q v s.n (fwd (ctFwd1 s q v) s.n x) := by
  apply fwd_ind (P := fun k (x : CtData K) => CT1 s q v k x) h.par.1
  · exact ⟨fun i h1 hi => by omega, fun i h1 hi => by omega, fun i h1 hi => by omega, fun i h1 hi => by omega,
      fun i h1 hi => by omega, fun i h1 hi => by omega, fun i h1 hi => by omega, fun i h1 hi => by omega⟩
  · intro i x h1 hi ih
    exact ih.step h hq h1 hi

/-! ## the backward passes -/

/-- what the first backward pass leaves for the following ones: factors from the articulated inertias `A` -/
structure CtFac (s : Sys K) (J : ℕ → Motion K) (A : ℕ → M6 K) (i : ℕ) (x : CtData K) : Prop where
  StU : (x.data.joints i).StU = dMat (seg J (s.iv i)) (seg s.arm (s.iv i)) (A i)
  Dinv : (x.data.joints i).Dinv = invBlock (s.jnv i) (dMat (seg J (s.iv i)) (seg s.arm (s.iv i)) (A i))
  UDinv : (x.data.joints i).UDinv = udCol (s.jnv i) (seg J (s.iv i)) (seg s.arm (s.iv i)) (A i)
  Y : s.par i > 0 → x.data.oYaba i = artDown (s.jnv i) (seg J (s.iv i)) (seg s.arm (s.iv i)) (A i)

theorem ctBwd_proj {i : ℕ} (x : CtData K) (hpi : s.par i ≠ i) :
    let S := seg x.data.J (s.iv i)
    let arm := seg s.arm (s.iv i)
    let x' := ctBwd s tau i x
    let Ia := artDown (s.jnv i) S arm (x.data.oYaba i)
    x'.data.J = x.data.J ∧ x'.data.oa = x.data.oa ∧ x'.data.of = x.data.of ∧
    x'.data.joints = upd x.data.joints i ((x.data.joints i).calcAba (s.jnv i) S arm (x.data.oYaba i)) ∧
    x'.data.u = putSeg x.data.u (s.iv i) (s.jnv i) (fun k => tau (s.iv i + k) - StF S (x.aug i + x.data.of i) k) ∧
    x'.data.oYaba = (if s.par i > 0 then upd (upd x.data.oYaba i Ia) (s.par i) (x.data.oYaba (s.par i) + Ia)
      else x.data.oYaba) ∧
    (∀ j, j ≠ i → x'.aug j = x.aug j + if s.par i > 0 ∧ j = s.par i then
      x.aug i + x.data.of i + (Ia.mulMF (x.data.oa i)
        + ∑ k ∈ range (s.jnv i), x'.data.u (s.iv i + k) • udCol (s.jnv i) S arm (x.data.oYaba i) k) else 0) := by
  intro S arm x' Ia
  have hpi' : i ≠ s.par i := hpi.symm
  by_cases h : s.par i > 0
  · refine ⟨?_, ?_, ?_, ?_, ?_, ?_, ?_⟩
    · simp only [x', ctBwd, h, if_true]
    · simp only [x', ctBwd, h, if_true]
    · simp only [x', ctBwd, h, if_true]
    · simp only [x', ctBwd, h, if_true]; rfl
    · simp only [x', ctBwd, h, if_true, upd_self]; rfl
    · simp only [x', ctBwd, h, if_true, upd_self, upd_ne _ _ hpi, calcAba_down]; rfl
    · intro j hj
      simp only [x', ctBwd, h, if_true, true_and, upd_self, upd_ne _ _ hpi, calcAba_down, calcAba_UDinv]
      by_cases e : j = s.par i
      · subst e
        rw [upd_self, if_pos rfl]
      · rw [upd_ne _ _ e, if_neg e, upd_ne _ _ hj, upd_ne _ _ hj, add_zero]
  · refine ⟨?_, ?_, ?_, ?_, ?_, ?_, ?_⟩
    · simp only [x', ctBwd, h, if_false]
    · simp only [x', ctBwd, h, if_false]
    · simp only [x', ctBwd, h, if_false]
    · simp only [x', ctBwd, h, if_false]; rfl
    · simp only [x', ctBwd, h, if_false, upd_self]; rfl
    · simp only [x', ctBwd, h, if_false]
    · intro j hj
      simp only [x', ctBwd, h, if_false, false_and, add_zero, upd_ne _ _ hj]

theorem ctBwd_ok (h : s.Packed) {I0 : ℕ → M6 K} {g : ℕ → Force K} {x : CtData K}
    (hY : ∀ i, 1 ≤ i → i < s.n → x.data.oYaba i = I0 i) (hg : ∀ i, 1 ≤ i → i < s.n → x.aug i = g i)
    (ha : ∀ i, 1 ≤ i → i < s.n → x.data.oa i = s.obias q v i) :
    ∃ G : ℕ → M6 K × Force K,
      IsAcc s.par s.n (artT s (worP s x.data.J q v) tau) (fun i => (I0 i, g i + x.data.of i)) G ∧
      (∀ i, 1 ≤ i → i < s.n → CtFac s x.data.J (fun i => (G i).1) i (bwd (ctBwd s tau) s.n x) ∧
        ∀ l < s.jnv i, (bwd (ctBwd s tau) s.n x).data.u (s.iv i + l)
          = tau (s.iv i + l) - (seg x.data.J (s.iv i) l).dot (G i).2) ∧
      (bwd (ctBwd s tau) s.n x).data.J = x.data.J ∧ (bwd (ctBwd s tau) s.n x).data.oa = x.data.oa ∧
      (bwd (ctBwd s tau) s.n x).data.of = x.data.of := by
  set P := worP s x.data.J q v with hP
  have key := bwd_ind (step := ctBwd s tau) (n := s.n) (d := x)
    (P := fun k (y : CtData K) => ∃ G : ℕ → M6 K × Force K,
      PAcc s.par s.n (artT s P tau) (fun i => (I0 i, g i + x.data.of i)) k G ∧
      (∀ i, 1 ≤ i → i < s.n → i < k → y.data.oYaba i = (G i).1 ∧ y.aug i + x.data.of i = (G i).2) ∧
      (∀ i, 1 ≤ i → i < s.n → k ≤ i → CtFac s x.data.J (fun i => (G i).1) i y ∧
        ∀ l < s.jnv i, y.data.u (s.iv i + l) = tau (s.iv i + l) - (seg x.data.J (s.iv i) l).dot (G i).2) ∧
      y.data.J = x.data.J ∧ y.data.oa = x.data.oa ∧ y.data.of = x.data.of) h.par.1
    ⟨fun i => (I0 i, g i + x.data.of i), PAcc.start _ _ _ _, fun i h1 hi _ => ⟨hY i h1 hi, by rw [hg i h1 hi]⟩,
      fun i _ _ _ => by omega, rfl, rfl, rfl⟩ ?_
  · obtain ⟨G, g1, -, g3, g4⟩ := key
    exact ⟨G, g1.done, fun i h1 hi => g3 i h1 hi h1, g4⟩
  · rintro i y h1 hi ⟨G, g1, g2, g3, eJ, ea, ef⟩
    have hpi := h.par.2 i h1 hi
    have hne : s.par i ≠ i := by omega
    obtain ⟨b1, b2, b3, b4, b5, b6, b7⟩ := ctBwd_proj (tau := tau) y hne
    obtain ⟨y1, y2⟩ := g2 i h1 hi (by omega)
    rw [eJ] at b4 b5 b6 b7
    rw [ef, y2] at b5
    simp only [ef, y2] at b7
    rw [ea, ha i h1 hi] at b7
    rw [y1] at b4 b6 b7
    have hui : ∀ l < s.jnv i, (ctBwd s tau i y).data.u (s.iv i + l)
        = tau (s.iv i + l) - (seg x.data.J (s.iv i) l).dot (G i).2 := by
      intro l hl
      rw [b5, putSeg_at _ _ hl]; rfl
    set G' : ℕ → M6 K × Force K :=
      if s.par i > 0 then upd G (s.par i) (G (s.par i) + artT s P tau i (G i)) else G with hG'
    have same : ∀ c, i ≤ c → G' c = G c := by
      intro c hc
      rw [hG']; split
      · rw [upd_ne _ _ (by omega)]
      · rfl
    refine ⟨G', ?_, ?_, ?_, b1.trans eJ, b2.trans ea, b3.trans ef⟩
    · apply PAcc.step h.par h1 hi g1
      intro j hj
      rw [hG']
      by_cases hpos : s.par i > 0
      · simp only [hpos, if_true]
        by_cases hj' : j = s.par i
        · subst hj'; rw [upd_self]; simp
        · rw [upd_ne _ _ hj']; simp [hj']
      · have : j ≠ s.par i := by omega
        simp [hpos, this]
    · intro j hj1 hj hji
      have hne' : j ≠ i := by omega
      obtain ⟨y', f'⟩ := g2 j hj1 hj (by omega)
      have esum : (∑ k ∈ range (s.jnv i), (ctBwd s tau i y).data.u (s.iv i + k)
            • udCol (s.jnv i) (seg x.data.J (s.iv i)) (seg s.arm (s.iv i)) (G i).1 k)
          = ∑ k ∈ range (s.jnv i), (tau (s.iv i + k) - (P.S i k).dot (G i).2)
            • udCol (s.jnv i) (P.S i) (seg s.arm (s.iv i)) (G i).1 k :=
        sum_congr rfl fun k hk => by rw [hui k (mem_range.1 hk)]; rfl
      rw [b6, b7 j hne', esum, hG']
      by_cases hpos : s.par i > 0
      · simp only [hpos, if_true, true_and]
        by_cases hj' : j = s.par i
        · subst hj'
          rw [upd_self, upd_self, if_pos rfl, y']
          refine ⟨rfl, ?_⟩
          rw [Prod.snd_add, ← f']
          rw [add_right_comm]
          rfl
        · rw [upd_ne _ _ hj', upd_ne _ _ hj', upd_ne _ _ hne', if_neg hj', add_zero]
          exact ⟨y', f'⟩
      · simp only [hpos, if_false, false_and, add_zero]; exact ⟨y', f'⟩
    · intro j hj1 hj hij
      by_cases hji : j = i
      · subst hji
        refine ⟨⟨?_, ?_, ?_, fun hpos => ?_⟩, fun l hl => by rw [same j le_rfl]; exact hui l hl⟩
        · rw [b4, upd_self, same j le_rfl]; rfl
        · rw [b4, upd_self, same j le_rfl]; rfl
        · rw [b4, upd_self, same j le_rfl]; rfl
        · rw [b6, if_pos hpos, upd_ne _ _ (by omega), upd_self, same j le_rfl]
      · obtain ⟨ih, iu⟩ := g3 j hj1 hj (by omega)
        refine ⟨⟨?_, ?_, ?_, fun hpos => ?_⟩, fun l hl => ?_⟩
        · rw [b4, upd_ne _ _ hji, same j (by omega)]; exact ih.StU
        · rw [b4, upd_ne _ _ hji, same j (by omega)]; exact ih.Dinv
        · rw [b4, upd_ne _ _ hji, same j (by omega)]; exact ih.UDinv
        · rw [b6, same j (by omega), ← ih.Y hpos]
          split
          · rw [upd_ne _ _ (by omega), upd_ne _ _ hji]
          · rfl
        · rw [b5, h.putSeg_ne' _ _ h1 hi hj1 hj hl hji, same j (by omega)]; exact iu l hl

theorem ctBwdAug_proj {i : ℕ} (x : CtData K) (hpi : s.par i ≠ i) :
    let S := seg x.data.J (s.iv i)
    let x' := ctBwdAug s tau i x
    x'.data = { x.data with u := x'.data.u } ∧
    x'.data.u = putSeg x.data.u (s.iv i) (s.jnv i) (fun k => tau (s.iv i + k) - StF S (x.aug i + x.data.of i) k) ∧
    (∀ j, j ≠ i → x'.aug j = x.aug j + if s.par i > 0 ∧ j = s.par i then
      x.aug i + x.data.of i + ((x.data.oYaba i).mulMF (x.data.oa i)
        + ∑ k ∈ range (s.jnv i), x'.data.u (s.iv i + k) • (x.data.joints i).UDinv k) else 0) := by
  intro S x'
  by_cases h : s.par i > 0
  · refine ⟨?_, ?_, ?_⟩
    · simp only [x', ctBwdAug, h, if_true]
    · simp only [x', ctBwdAug, h, if_true, upd_self]; rfl
    · intro j hj
      simp only [x', ctBwdAug, h, if_true, true_and, upd_self, upd_ne _ _ hpi]
      by_cases e : j = s.par i
      · subst e
        rw [upd_self, if_pos rfl]
      · rw [upd_ne _ _ e, if_neg e, upd_ne _ _ hj, upd_ne _ _ hj, add_zero]
  · refine ⟨?_, ?_, ?_⟩
    · simp only [x', ctBwdAug, h, if_false]
    · simp only [x', ctBwdAug, h, if_false, upd_self]; rfl
    · intro j hj
      simp only [x', ctBwdAug, h, if_false, false_and, add_zero, upd_ne _ _ hj]

theorem ctBwdAug_ok (h : s.Packed) {I0 A : ℕ → M6 K} {J : ℕ → Motion K} {g : ℕ → Force K} {x : CtData K}
    (hJ : x.data.J = J) (hA : IsAcc s.par s.n (artI s (worP s J q v)) I0 A)
    (hF : ∀ i, 1 ≤ i → i < s.n → CtFac s J A i x) (hg : ∀ i, 1 ≤ i → i < s.n → x.aug i = g i)
    (ha : ∀ i, 1 ≤ i → i < s.n → x.data.oa i = s.obias q v i) :
    ∃ p : ℕ → Force K,
      IsAcc s.par s.n (artT s (worP s J q v) tau) (fun i => (I0 i, g i + x.data.of i)) (fun i => (A i, p i)) ∧
      (∀ i, 1 ≤ i → i < s.n →
        ∀ l < s.jnv i, (bwd (ctBwdAug s tau) s.n x).data.u (s.iv i + l)
          = tau (s.iv i + l) - (seg J (s.iv i) l).dot (p i)) ∧
      (bwd (ctBwdAug s tau) s.n x).data = { x.data with u := (bwd (ctBwdAug s tau) s.n x).data.u } := by
  set P := worP s J q v with hP
  set T : ℕ → Force K → Force K := fun c f => (artT s P tau c (A c, f)).2 with hT
  have key := bwd_ind (step := ctBwdAug s tau) (n := s.n) (d := x)
    (P := fun k (y : CtData K) => ∃ p : ℕ → Force K,
      PAcc s.par s.n T (fun i => g i + x.data.of i) k p ∧
      (∀ i, 1 ≤ i → i < s.n → i < k → y.aug i + x.data.of i = p i) ∧
      (∀ i, 1 ≤ i → i < s.n → k ≤ i →
        ∀ l < s.jnv i, y.data.u (s.iv i + l) = tau (s.iv i + l) - (seg J (s.iv i) l).dot (p i)) ∧
      y.data = { x.data with u := y.data.u }) h.par.1
    ⟨fun i => g i + x.data.of i, PAcc.start _ _ _ _, fun i h1 hi _ => by rw [hg i h1 hi],
      fun i _ _ _ => by omega, rfl⟩ ?_
  · obtain ⟨p, g1, -, g3, g4⟩ := key
    refine ⟨p, fun i h1 hi => Prod.ext ?_ ?_, fun i h1 hi => g3 i h1 hi h1, g4⟩
    · rw [Prod.fst_add, Prod.fst_sum]; exact hA i h1 hi
    · rw [Prod.snd_add, Prod.snd_sum]; exact g1.done i h1 hi
  · rintro i y h1 hi ⟨p, g1, g2, g3, ed⟩
    have hpi := h.par.2 i h1 hi
    have hne : s.par i ≠ i := by omega
    obtain ⟨b1, b5, b7⟩ := ctBwdAug_proj (tau := tau) y hne
    have y2 := g2 i h1 hi (by omega)
    have eJ : y.data.J = J := by rw [ed]; exact hJ
    have ea : y.data.oa = x.data.oa := by rw [ed]
    have ef : y.data.of = x.data.of := by rw [ed]
    have ej : y.data.joints = x.data.joints := by rw [ed]
    have eY : y.data.oYaba = x.data.oYaba := by rw [ed]
    have hFi := hF i h1 hi
    rw [eJ, ef, y2] at b5
    simp only [ef, y2] at b7
    rw [ea, ha i h1 hi, ej, eY, hFi.UDinv] at b7
    have hui : ∀ l < s.jnv i, (ctBwdAug s tau i y).data.u (s.iv i + l)
        = tau (s.iv i + l) - (seg J (s.iv i) l).dot (p i) := by
      intro l hl
      rw [b5, putSeg_at _ _ hl]; rfl
    set p' : ℕ → Force K := if s.par i > 0 then upd p (s.par i) (p (s.par i) + T i (p i)) else p with hp'
    have same : ∀ c, i ≤ c → p' c = p c := by
      intro c hc
      rw [hp']; split
      · rw [upd_ne _ _ (by omega)]
      · rfl
    refine ⟨p', ?_, ?_, ?_, ?_⟩
    · apply PAcc.step h.par h1 hi g1
      intro j hj
      rw [hp']
      by_cases hpos : s.par i > 0
      · simp only [hpos, if_true]
        by_cases hj' : j = s.par i
        · subst hj'; rw [upd_self]; simp
        · rw [upd_ne _ _ hj']; simp [hj']
      · have : j ≠ s.par i := by omega
        simp [hpos, this]
    · intro j hj1 hj hji
      have hne' : j ≠ i := by omega
      have f' := g2 j hj1 hj (by omega)
      have esum : (∑ k ∈ range (s.jnv i), (ctBwdAug s tau i y).data.u (s.iv i + k)
            • udCol (s.jnv i) (seg J (s.iv i)) (seg s.arm (s.iv i)) (A i) k)
          = ∑ k ∈ range (s.jnv i), (tau (s.iv i + k) - (P.S i k).dot (p i))
            • udCol (s.jnv i) (P.S i) (seg s.arm (s.iv i)) (A i) k :=
        sum_congr rfl fun k hk => by rw [hui k (mem_range.1 hk)]; rfl
      rw [b7 j hne', esum, hp']
      by_cases hpos : s.par i > 0
      · simp only [hpos, if_true, true_and]
        rw [hFi.Y hpos]
        by_cases hj' : j = s.par i
        · subst hj'
          rw [upd_self, if_pos rfl, ← f']
          rw [add_right_comm]
          rfl
        · rw [upd_ne _ _ hj', if_neg hj', add_zero]
          exact f'
      · simp only [hpos, if_false, false_and, add_zero]; exact f'
    · intro j hj1 hj hij l hl
      rw [same j hij]
      by_cases hji : j = i
      · subst hji; exact hui l hl
      · rw [b5, h.putSeg_ne' _ _ h1 hi hj1 hj hl hji]; exact g3 j hj1 hj (by omega) l hl
    · rw [b1, ed]

/-! ## the last pass -/

theorem ctFwd2_ok (h : s.Packed) (x : CtData K) :
    let y := fwd (ctFwd2 s) s.n x
    y.data = { x.data with ddq := y.data.ddq } ∧ (∀ i, 1 ≤ i → i < s.n → y.aug i = 0) ∧
    ∀ i, 1 ≤ i → i < s.n →
      y.aa i = x.data.oa i + (if s.par i > 0 then y.aa (s.par i) else 0)
        + comb (seg x.data.J (s.iv i)) (s.jnv i) (s.vs y.data.ddq i) ∧
      ∀ l < s.jnv i, y.data.ddq (s.iv i + l)
        = (∑ m ∈ range (s.jnv i), (x.data.joints i).Dinv l m * x.data.u (s.iv i + m))
        - (x.data.oa i + (if s.par i > 0 then y.aa (s.par i) else 0)).dot ((x.data.joints i).UDinv l) := by
  intro y
  apply fwd_ind (step := ctFwd2 s) (n := s.n) (d := x)
    (P := fun k (y : CtData K) => y.data = { x.data with ddq := y.data.ddq } ∧ (∀ i, 1 ≤ i → i < k → y.aug i = 0) ∧
    ∀ i, 1 ≤ i → i < k →
      y.aa i = x.data.oa i + (if s.par i > 0 then y.aa (s.par i) else 0)
        + comb (seg x.data.J (s.iv i)) (s.jnv i) (s.vs y.data.ddq i) ∧
      ∀ l < s.jnv i, y.data.ddq (s.iv i + l)
        = (∑ m ∈ range (s.jnv i), (x.data.joints i).Dinv l m * x.data.u (s.iv i + m))
        - (x.data.oa i + (if s.par i > 0 then y.aa (s.par i) else 0)).dot ((x.data.joints i).UDinv l)) h.par.1
  · exact ⟨rfl, fun i h1 hi => by omega, fun i h1 hi => by omega⟩
  · rintro i y h1 hi ⟨ed, eg, ih⟩
    have hpi := h.par.2 i h1 hi
    have hne : s.par i ≠ i := by omega
    have e2 : (ctFwd2 s i y).data.ddq = putSeg y.data.ddq (s.iv i) (s.jnv i) (fun k =>
        (∑ l ∈ range (s.jnv i), (x.data.joints i).Dinv k l * x.data.u (s.iv i + l))
          - (x.data.oa i + (if s.par i > 0 then y.aa (s.par i) else 0)).dot ((x.data.joints i).UDinv k)) := by
      have ej : y.data.joints = x.data.joints := by rw [ed]
      have eu : y.data.u = x.data.u := by rw [ed]
      have ea : y.data.oa = x.data.oa := by rw [ed]
      by_cases hpos : s.par i > 0
      · simp only [ctFwd2, hpos, if_true, upd_self, upd_ne _ _ hne, ej, eu, ea]
      · simp only [ctFwd2, hpos, if_false, upd_self, ej, eu, ea, add_zero]
    have e1 : (ctFwd2 s i y).aa = upd y.aa i (x.data.oa i + (if s.par i > 0 then y.aa (s.par i) else 0)
        + comb (seg x.data.J (s.iv i)) (s.jnv i) (seg (ctFwd2 s i y).data.ddq (s.iv i))) := by
      have eJ : y.data.J = x.data.J := by rw [ed]
      have ea : y.data.oa = x.data.oa := by rw [ed]
      by_cases hpos : s.par i > 0
      · simp only [ctFwd2, hpos, if_true, upd_self, upd_ne _ _ hne, Function.update_idem, eJ, ea]
      · simp only [ctFwd2, hpos, if_false, upd_self, Function.update_idem, eJ, ea, add_zero]
    have e3 : (ctFwd2 s i y).data = { y.data with ddq := (ctFwd2 s i y).data.ddq } := by
      by_cases hpos : s.par i > 0
      · simp only [ctFwd2, hpos, if_true]
      · simp only [ctFwd2, hpos, if_false]
    have e4 : (ctFwd2 s i y).aug = upd y.aug i 0 := by
      by_cases hpos : s.par i > 0
      · simp only [ctFwd2, hpos, if_true]
      · simp only [ctFwd2, hpos, if_false]
    refine ⟨by rw [e3, ed], fun j hj1 hj => ?_, fun j hj1 hj => ?_⟩
    · by_cases hji : j = i
      · subst hji; rw [e4, upd_self]
      · rw [e4, upd_ne _ _ hji]; exact eg j hj1 (by omega)
    · by_cases hji : j = i
      · subst hji
        constructor
        · rw [e1, upd_self, upd_ne _ _ hne]; rfl
        · intro l hl
          rw [e2, putSeg_read _ _ hl, e1, upd_ne _ _ hne]
      · have hpj := h.par.2 j hj1 (by omega)
        obtain ⟨i1, i2⟩ := ih j hj1 (by omega)
        have hq : ∀ l < s.jnv j, (ctFwd2 s i y).data.ddq (s.iv j + l) = y.data.ddq (s.iv j + l) := by
          intro l hl
          rw [e2, h.putSeg_ne' _ _ h1 hi hj1 (by omega) hl hji]
        constructor
        · rw [e1, upd_ne _ _ hji, upd_ne _ _ (by omega), i1]
          congr 1
          exact comb_congr (fun _ _ => rfl) (fun k hk => (hq k hk).symm)
        · intro l hl
          rw [hq l hl, i2 l hl, e1, upd_ne _ _ (by omega)]

end Pin
