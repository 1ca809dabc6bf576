import Verif.Algo.SpecLemmas
import Verif.Algo.Kinematics
import Verif.Algo.Rnea

/-! # What the loops of `kinematics.hxx` and `rnea.hxx` compute -/

set_option linter.unusedSectionVars false

namespace Pin
open Finset
variable {K : Type*} [CommRing K] {s : Sys K}

/-! ## forward kinematics -/

/-- placements computed for joints below `k` -/
def PlOk (s : Sys K) (q : ℕ → K) (k : ℕ) (d : Data K) : Prop :=
  ∀ i, 1 ≤ i → i < k → d.liMi i = s.X q i ∧ d.oMi i = s.oM q i ∧ (d.joints i).S = s.S q i
    ∧ (d.joints i).M = (s.jt i).M (s.qs q i)

theorem oM_code (hp : ParOk s.par s.n) {q : ℕ → K} {i : ℕ} (h1 : 1 ≤ i) (hi : i < s.n) {o : ℕ → SE3 K}
    (ho : ∀ j, 1 ≤ j → j < i → o j = s.oM q j) :
    (if s.par i > 0 then o (s.par i) * s.X q i else s.X q i) = s.oM q i := by
  have hpi := hp.2 i h1 hi
  rw [s.oM_step h1 hpi]
  split
  · rw [ho _ (by omega) hpi]
  · have : s.par i = 0 := by omega
    rw [this, s.oM_zero, SE3.one_mul]

theorem fk0_ok (hp : ParOk s.par s.n) (d : Data K) (q : ℕ → K) :
    PlOk s q s.n (forwardKinematics s d q) := by
  unfold forwardKinematics
  apply fwd_ind (P := fun k (d : Data K) => PlOk s q k d) hp.1
  · intro i h1 hi; omega
  · intro i d h1 hi ih j hj1 hj
    have hpi := hp.2 i h1 hi
    by_cases hji : j = i
    · subst hji
      have e := oM_code hp (q := q) h1 hi (o := d.oMi) (fun j a b => (ih j a b).2.1)
      simp only [fk0Step, upd_self, Joint.calc]
      refine ⟨?_, e, ?_, ?_⟩ <;> first | trivial | rfl
    · have := ih j hj1 (by omega)
      simp only [fk0Step, upd_ne _ _ hji]
      exact this

/-- velocities computed for joints below `k` -/
def VelOk (s : Sys K) (q v : ℕ → K) (k : ℕ) (d : Data K) : Prop :=
  ∀ i, 1 ≤ i → i < k → d.v i = s.V q v i ∧ (d.joints i).v = s.jvel q v i ∧ (d.joints i).c = s.cb q v i

theorem v_code (hp : ParOk s.par s.n) {q v : ℕ → K} {i : ℕ} (h1 : 1 ≤ i) (hi : i < s.n) {o : ℕ → Motion K}
    (ho : ∀ j, 1 ≤ j → j < i → o j = s.V q v j) :
    (if s.par i > 0 then s.jvel q v i + (s.X q i).actInv (o (s.par i)) else s.jvel q v i)
      = s.V q v i := by
  have hpi := hp.2 i h1 hi
  rw [s.V_step h1 hpi]
  split
  · rw [ho _ (by omega) hpi]
  · have : s.par i = 0 := by omega
    rw [this, s.V_zero]; simp

theorem fk1Step_at (hp : ParOk s.par s.n) {q v : ℕ → K} (hq : s.At q) {i : ℕ} (h1 : 1 ≤ i) (hi : i < s.n)
    {d : Data K} (hpl : PlOk s q i d) (hv : VelOk s q v i d) :
    PlOk s q (i + 1) (fk1Step s q v i d) ∧ VelOk s q v (i + 1) (fk1Step s q v i d) := by
  have hpi := hp.2 i h1 hi
  have hne : s.par i ≠ i := by omega
  have e := oM_code hp (q := q) h1 hi (o := d.oMi) (fun j a b => (hpl j a b).2.1)
  have e' := v_code hp (q := q) (v := v) h1 hi (o := d.v) (fun j a b => (hv j a b).1)
  have hvel : (s.jt i).v (s.qs q i) (s.vs v i) = s.jvel q v i := (hq.jt i h1 hi).vel _
  constructor
  · intro j hj1 hj
    by_cases hji : j = i
    · subst hji
      by_cases h : s.par j > 0
      · simp only [h, if_true] at e
        simp only [fk1Step, upd_self, Joint.calcV, h, if_true]
        refine ⟨?_, e, ?_, ?_⟩ <;> first | trivial | rfl
      · simp only [h, if_false] at e
        simp only [fk1Step, upd_self, Joint.calcV, h, if_false]
        refine ⟨?_, e, ?_, ?_⟩ <;> first | trivial | rfl
    · have := hpl j hj1 (by omega)
      by_cases h : s.par i > 0
      · simp only [fk1Step, upd_ne _ _ hji, h, if_true]; exact this
      · simp only [fk1Step, upd_ne _ _ hji, h, if_false]; exact this
  · intro j hj1 hj
    by_cases hji : j = i
    · subst hji
      by_cases h : s.par j > 0
      · simp only [h, if_true] at e'
        simp only [fk1Step, upd_self, Joint.calcV, h, if_true, upd_ne _ _ hne, hvel]
        exact ⟨e', trivial, rfl⟩
      · simp only [h, if_false] at e'
        simp only [fk1Step, upd_self, Joint.calcV, h, if_false, hvel]
        exact ⟨e', trivial, rfl⟩
    · have := hv j hj1 (by omega)
      by_cases h : s.par i > 0
      · simp only [fk1Step, upd_ne _ _ hji, h, if_true]; exact this
      · simp only [fk1Step, upd_ne _ _ hji, h, if_false]; exact this

theorem fk1_ok (hp : ParOk s.par s.n) (d : Data K) {q : ℕ → K} (hq : s.At q) (v : ℕ → K) :
    PlOk s q s.n (forwardKinematicsV s d q v) ∧ VelOk s q v s.n (forwardKinematicsV s d q v) := by
  unfold forwardKinematicsV
  apply fwd_ind (P := fun k (d : Data K) => PlOk s q k d ∧ VelOk s q v k d) hp.1
  · exact ⟨fun i h1 hi => by omega, fun i h1 hi => by omega⟩
  · intro i d h1 hi ih
    exact fk1Step_at hp hq h1 hi ih.1 ih.2

/-- accelerations computed for joints below `k` -/
def AccOk (s : Sys K) (a0 : Motion K) (q v a : ℕ → K) (k : ℕ) (x : ℕ → Motion K) : Prop :=
  ∀ i, i < k → x i = s.A a0 q v a i

theorem fk1Step_a (q v : ℕ → K) (i : ℕ) (d : Data K) : (fk1Step s q v i d).a = d.a := by
  unfold fk1Step; split <;> rfl

theorem fk2_ok (hp : ParOk s.par s.n) (d : Data K) {q : ℕ → K} (hq : s.At q) (v a : ℕ → K) :
    PlOk s q s.n (forwardKinematicsA s d q v a) ∧ VelOk s q v s.n (forwardKinematicsA s d q v a)
      ∧ AccOk s 0 q v a s.n (forwardKinematicsA s d q v a).a := by
  unfold forwardKinematicsA
  apply fwd_ind (P := fun k (d : Data K) => PlOk s q k d ∧ VelOk s q v k d ∧ AccOk s 0 q v a k d.a) hp.1
  · refine ⟨fun i h1 hi => by omega, fun i h1 hi => by omega, fun i hi => ?_⟩
    have : i = 0 := by omega
    subst this
    rw [s.A_zero]; exact upd_self d.a 0 0
  · intro i d h1 hi ih
    have hpi := hp.2 i h1 hi
    have hne : s.par i ≠ i := by omega
    obtain ⟨hpl, hv⟩ := fk1Step_at hp hq h1 hi ih.1 ih.2.1
    refine ⟨hpl, hv, ?_⟩
    intro j hj
    by_cases hji : j = i
    · subst hji
      obtain ⟨p1, -, p3, -⟩ := hpl j h1 (by omega)
      obtain ⟨q1, q2, q3⟩ := hv j h1 (by omega)
      simp only [fk2Step, upd_self, upd_ne _ _ hne, fk1Step_a, ih.2.2 _ hpi, p1, p3, q1, q2, q3]
      rw [s.A_step h1 hpi]
      rfl
    · simp only [fk2Step, upd_ne _ _ hji, fk1Step_a]
      exact ih.2.2 j (by omega)

/-! ## RNEA -/

/-- body force of joint `i`: `I a + v × I v` -/
def Sys.F (s : Sys K) (a0 : Motion K) (q v a : ℕ → K) (i : ℕ) : Force K :=
  (s.Y i).mul (s.A a0 q v a i) + (s.V q v i).crossF ((s.Y i).mul (s.V q v i))

/-- the state of a Newton-Euler forward pass for joints below `k` -/
structure NE (s : Sys K) (q v a : ℕ → K) (F : ℕ → Force K) (k : ℕ) (d : Data K) : Prop where
  li : ∀ i, 1 ≤ i → i < k → d.liMi i = s.X q i ∧ (d.joints i).S = s.S q i
  a : ∀ i, i < k → d.a_gf i = s.A (-s.grav) q v a i
  v : ∀ i, 1 ≤ i → i < k → d.v i = s.V q v i
  f : ∀ i, 1 ≤ i → i < k → d.f i = F i

theorem rneaFwd_proj {q v a : ℕ → K} {i : ℕ} (d : Data K) (hpi : s.par i ≠ i) (hq : (s.jt i).Ok (s.qs q i)) :
    (rneaFwd s q v a i d).liMi = upd d.liMi i (s.X q i) ∧
    (rneaFwd s q v a i d).joints = upd d.joints i ((s.jt i).calcV (s.qs q i) (s.vs v i) (d.joints i)) ∧
    (rneaFwd s q v a i d).v = upd d.v i
      (if s.par i > 0 then s.jvel q v i + (s.X q i).actInv (d.v (s.par i)) else s.jvel q v i) ∧
    (rneaFwd s q v a i d).a_gf = upd d.a_gf i (s.cb q v i
      + ((rneaFwd s q v a i d).v i).cross (s.jvel q v i) + s.jvel q a i
      + (s.X q i).actInv (d.a_gf (s.par i))) ∧
    (rneaFwd s q v a i d).f = upd d.f i ((s.Y i).mul ((rneaFwd s q v a i d).a_gf i)
      + ((rneaFwd s q v a i d).v i).crossF ((s.Y i).mul ((rneaFwd s q v a i d).v i))) ∧
    (rneaFwd s q v a i d).tau = d.tau := by
  have hvel : (s.jt i).v (s.qs q i) (s.vs v i) = s.jvel q v i := hq.vel _
  by_cases h : s.par i > 0
  · simp only [rneaFwd, h, if_true, upd_self, upd_ne _ _ hpi, Joint.calcV, hvel, Function.update_idem]
    refine ⟨?_, ?_, ?_, ?_, ?_, ?_⟩ <;> first | trivial | rfl
  · simp only [rneaFwd, h, if_false, upd_self, upd_ne _ _ hpi, Joint.calcV, hvel, Function.update_idem]
    refine ⟨?_, ?_, ?_, ?_, ?_, ?_⟩ <;> first | trivial | rfl

theorem NE.zero (q v a : ℕ → K) (F : ℕ → Force K) {d : Data K} (h : d.a_gf 0 = -s.grav) :
    NE s q v a F 1 d := by
  refine ⟨fun i h1 hi => by omega, fun i hi => ?_, fun i h1 hi => by omega, fun i h1 hi => by omega⟩
  have : i = 0 := by omega
  subst this; rw [s.A_zero, h]

theorem NE.step (hp : ParOk s.par s.n) {q : ℕ → K} (hq : s.At q) {v a : ℕ → K} {F : ℕ → Force K}
    {i : ℕ} {d : Data K} (h1 : 1 ≤ i) (hi : i < s.n) (h : NE s q v a F i d) (Fi : Force K)
    (hF : F i = (rneaFwd s q v a i d).f i - Fi ) {d' : Data K}
    (hd' : d' = { (rneaFwd s q v a i d) with
      f := upd (rneaFwd s q v a i d).f i ((rneaFwd s q v a i d).f i - Fi) }) : NE s q v a F (i + 1) d' := by
  have hpi := hp.2 i h1 hi
  have hne : s.par i ≠ i := by omega
  obtain ⟨e1, e2, e3, e4, e5, -⟩ := rneaFwd_proj (v := v) (a := a) d hne (hq.jt i h1 hi)
  have ev : (rneaFwd s q v a i d).v i = s.V q v i := by
    rw [e3, upd_self]; exact v_code hp h1 hi h.v
  subst hd'
  refine ⟨fun j hj1 hj => ?_, fun j hj => ?_, fun j hj1 hj => ?_, fun j hj1 hj => ?_⟩
  · by_cases hji : j = i
    · subst hji; simp only [e1, e2, upd_self, Joint.calcV]; exact ⟨trivial, rfl⟩
    · simp only [e1, e2, upd_ne _ _ hji]; exact h.li j hj1 (by omega)
  · by_cases hji : j = i
    · subst hji
      simp only [e4, upd_self, ev]
      rw [h.a _ hpi, s.A_step h1 hpi]; abel
    · simp only [e4, upd_ne _ _ hji]; exact h.a j (by omega)
  · by_cases hji : j = i
    · subst hji; exact ev
    · simp only [e3, upd_ne _ _ hji]; exact h.v j hj1 (by omega)
  · by_cases hji : j = i
    · subst hji; simp only [upd_self]; exact hF.symm
    · simp only [upd_ne _ _ hji, e5]; exact h.f j hj1 (by omega)

theorem rneaFwd_f_val (hp : ParOk s.par s.n) {q : ℕ → K} (hq : s.At q) {v a : ℕ → K} {F : ℕ → Force K}
    {i : ℕ} {d : Data K} (h1 : 1 ≤ i) (hi : i < s.n) (h : NE s q v a F i d) :
    (rneaFwd s q v a i d).f i = s.F (-s.grav) q v a i := by
  have hpi := hp.2 i h1 hi
  have hne : s.par i ≠ i := by omega
  obtain ⟨e1, e2, e3, e4, e5, -⟩ := rneaFwd_proj (v := v) (a := a) d hne (hq.jt i h1 hi)
  have ev : (rneaFwd s q v a i d).v i = s.V q v i := by
    rw [e3, upd_self]; exact v_code hp h1 hi h.v
  have ea : (rneaFwd s q v a i d).a_gf i = s.A (-s.grav) q v a i := by
    rw [e4, upd_self, ev, h.a _ hpi, s.A_step h1 hpi]; abel
  rw [e5, upd_self, ev, ea]
  rfl

/-- the backward pass of the Newton-Euler algorithms on the pair (forces, torque vector) -/
structure FT (s : Sys K) (q : ℕ → K) (F : ℕ → Force K) (k : ℕ) (f : ℕ → Force K) (t : ℕ → K) : Prop where
  acc : PAcc s.par s.n (fun i => (s.X q i).actF) F k f
  tau : ∀ r, t r = ∑ i ∈ Ico k s.n, torqueAt (s.iv i) (s.jnv i) (s.S q i) (f i) r

theorem FT.start {q : ℕ → K} {F f : ℕ → Force K} (h : ∀ i, 1 ≤ i → i < s.n → f i = F i) :
    FT s q F s.n f (fun _ => 0) := by
  refine ⟨?_, fun r => by simp⟩
  intro i h1 hi
  rw [h i h1 hi, Finset.filter_eq_empty_iff.2, Finset.sum_empty, add_zero]
  intro c hc
  have := (mem_kids.1 hc).1.2
  omega

theorem addSeg_eq (t : ℕ → K) (i n : ℕ) (S : ℕ → Motion K) (f : Force K) (r : ℕ) :
    addSeg t i n (StF S f) r = t r + torqueAt i n S f r := by
  unfold addSeg torqueAt StF; split <;> simp

theorem FT.step (hp : ParOk s.par s.n) {q : ℕ → K} {F f f' : ℕ → Force K} {t : ℕ → K} {i : ℕ}
    (h1 : 1 ≤ i) (hi : i < s.n) (h : FT s q F (i + 1) f t)
    (hf : f' = if s.par i > 0 then upd f (s.par i) (f (s.par i) + (s.X q i).actF (f i)) else f) :
    FT s q F i f' (addSeg t (s.iv i) (s.jnv i) (StF (s.S q i) (f i))) := by
  have hpi := hp.2 i h1 hi
  have same : ∀ c, i ≤ c → f' c = f c := by
    intro c hc
    rw [hf]; split
    · rw [upd_ne _ _ (by omega)]
    · rfl
  constructor
  · apply PAcc.step hp h1 hi h.acc
    intro j hj
    rw [hf]
    by_cases hpos : s.par i > 0
    · simp only [hpos, if_true]
      by_cases hj' : j = s.par i
      · subst hj'; rw [upd_self]; simp
      · rw [upd_ne _ _ hj']; simp [hj']
    · have : j ≠ s.par i := by omega
      simp [hpos, this]
  · intro r
    rw [addSeg_eq, h.tau r, Finset.sum_eq_sum_Ico_succ_bot hi, same i le_rfl, add_comm]
    congr 1
    apply sum_congr rfl
    intro j hj
    rw [same j (by have := (mem_Ico.1 hj).1; omega)]

/-- **virtual power**: the torque vector paired with a joint velocity is the power of the body forces along
the body velocities -/
theorem FT.power (hw : s.WF) {q : ℕ → K} {F f : ℕ → Force K} {t : ℕ → K} (h : FT s q F 1 f t) (w : ℕ → K) :
    s.dotv w t = ∑ i ∈ Ico 1 s.n, (s.V q w i).dot (F i) := by
  have e1 : s.dotv w t = ∑ i ∈ Ico 1 s.n, (s.jvel q w i).dot (f i) := by
    unfold Sys.dotv
    rw [sum_congr rfl (g := fun r => ∑ i ∈ Ico 1 s.n,
      w r * torqueAt (s.iv i) (s.jnv i) (s.S q i) (f i) r), sum_comm]
    · apply sum_congr rfl
      intro i hi
      rw [mem_Ico] at hi
      exact sum_torqueAt (hw.ivle i hi.1 hi.2) _ _ _
    · intro r _
      rw [h.tau r, mul_sum]
  rw [e1]
  have := tree_duality hw.par dotHom (fun i => (s.X q i).actInv) (fun i => (s.X q i).actF)
    (fun i v f => SE3.dot_actInv _ _ _) (s.V_zero q w)
    (fun i h1 hi => s.V_step h1 (hw.par.2 i h1 hi)) h.acc.done
  simpa using this

theorem rneaBwd_ok (hp : ParOk s.par s.n) {q : ℕ → K} {F : ℕ → Force K} {d : Data K}
    (hli : ∀ i, 1 ≤ i → i < s.n → d.liMi i = s.X q i ∧ (d.joints i).S = s.S q i)
    (hF : ∀ i, 1 ≤ i → i < s.n → d.f i = F i) (ht : d.tau = fun _ => 0) :
    FT s q F 1 (bwd (rneaBwd s) s.n d).f (bwd (rneaBwd s) s.n d).tau := by
  have key : (∀ i, 1 ≤ i → i < s.n → (bwd (rneaBwd s) s.n d).liMi i = s.X q i
      ∧ ((bwd (rneaBwd s) s.n d).joints i).S = s.S q i) ∧
      FT s q F 1 (bwd (rneaBwd s) s.n d).f (bwd (rneaBwd s) s.n d).tau := by
    apply bwd_ind (P := fun k (d : Data K) => (∀ i, 1 ≤ i → i < s.n → d.liMi i = s.X q i ∧ (d.joints i).S = s.S q i)
      ∧ FT s q F k d.f d.tau) hp.1
    · exact ⟨hli, by rw [ht]; exact FT.start hF⟩
    · rintro i d h1 hi ⟨ih1, ih2⟩
      constructor
      · intro j hj1 hj
        have := ih1 j hj1 hj
        unfold rneaBwd pushF; split <;> exact this
      · have := FT.step hp h1 hi ih2 rfl
        obtain ⟨g1, g2⟩ := ih1 i h1 hi
        by_cases hpos : s.par i > 0
        · simp only [rneaBwd, pushF, hpos, if_true, g1, g2] at this ⊢; exact this
        · simp only [rneaBwd, pushF, hpos, if_false, g2] at this ⊢; exact this
  exact key.2

theorem nleBwd_ok (hp : ParOk s.par s.n) {q : ℕ → K} {F : ℕ → Force K} {d : Data K}
    (hli : ∀ i, 1 ≤ i → i < s.n → d.liMi i = s.X q i ∧ (d.joints i).S = s.S q i)
    (hF : ∀ i, 1 ≤ i → i < s.n → d.f i = F i) (ht : d.nle = fun _ => 0) :
    FT s q F 1 (bwd (nleBwd s) s.n d).f (bwd (nleBwd s) s.n d).nle := by
  have key : (∀ i, 1 ≤ i → i < s.n → (bwd (nleBwd s) s.n d).liMi i = s.X q i
      ∧ ((bwd (nleBwd s) s.n d).joints i).S = s.S q i) ∧
      FT s q F 1 (bwd (nleBwd s) s.n d).f (bwd (nleBwd s) s.n d).nle := by
    apply bwd_ind (P := fun k (d : Data K) => (∀ i, 1 ≤ i → i < s.n → d.liMi i = s.X q i ∧ (d.joints i).S = s.S q i)
      ∧ FT s q F k d.f d.nle) hp.1
    · exact ⟨hli, by rw [ht]; exact FT.start hF⟩
    · rintro i d h1 hi ⟨ih1, ih2⟩
      constructor
      · intro j hj1 hj
        have := ih1 j hj1 hj
        unfold nleBwd pushF; split <;> exact this
      · have := FT.step hp h1 hi ih2 rfl
        obtain ⟨g1, g2⟩ := ih1 i h1 hi
        by_cases hpos : s.par i > 0
        · simp only [nleBwd, pushF, hpos, if_true, g1, g2] at this ⊢; exact this
        · simp only [nleBwd, pushF, hpos, if_false, g2] at this ⊢; exact this
  exact key.2

theorem gravBwd_ok (hp : ParOk s.par s.n) {q : ℕ → K} {F : ℕ → Force K} {d : Data K}
    (hli : ∀ i, 1 ≤ i → i < s.n → d.liMi i = s.X q i ∧ (d.joints i).S = s.S q i)
    (hF : ∀ i, 1 ≤ i → i < s.n → d.f i = F i) (ht : d.g = fun _ => 0) :
    FT s q F 1 (bwd (gravBwd s) s.n d).f (bwd (gravBwd s) s.n d).g := by
  have key : (∀ i, 1 ≤ i → i < s.n → (bwd (gravBwd s) s.n d).liMi i = s.X q i
      ∧ ((bwd (gravBwd s) s.n d).joints i).S = s.S q i) ∧
      FT s q F 1 (bwd (gravBwd s) s.n d).f (bwd (gravBwd s) s.n d).g := by
    apply bwd_ind (P := fun k (d : Data K) => (∀ i, 1 ≤ i → i < s.n → d.liMi i = s.X q i ∧ (d.joints i).S = s.S q i)
      ∧ FT s q F k d.f d.g) hp.1
    · exact ⟨hli, by rw [ht]; exact FT.start hF⟩
    · rintro i d h1 hi ⟨ih1, ih2⟩
      constructor
      · intro j hj1 hj
        have := ih1 j hj1 hj
        unfold gravBwd pushF; split <;> exact this
      · have := FT.step hp h1 hi ih2 rfl
        obtain ⟨g1, g2⟩ := ih1 i h1 hi
        by_cases hpos : s.par i > 0
        · simp only [gravBwd, pushF, hpos, if_true, g1, g2] at this ⊢; exact this
        · simp only [gravBwd, pushF, hpos, if_false, g2] at this ⊢; exact this
  exact key.2

/-! ### the four algorithms -/

theorem rneaFext_power (hw : s.WF) (d : Data K) {q : ℕ → K} (hq : s.At q) (v a : ℕ → K)
    (fext : ℕ → Force K) (w : ℕ → K) :
    s.dotv w (rneaFext s d q v a fext).tau
      = (∑ i ∈ Ico 1 s.n, (s.V q w i).dot (s.F (-s.grav) q v a i - fext i))
        + s.dotv w (fun r => s.arm r * a r) := by
  have hfwd : ∀ d : Data K, d.a_gf 0 = -s.grav → d.tau = (fun _ => 0) →
      NE s q v a (fun i => s.F (-s.grav) q v a i - fext i) s.n (fwd (fun i d =>
        let d := rneaFwd s q v a i d
        { d with f := upd d.f i (d.f i - fext i) }) s.n d) ∧ (fwd (fun i d =>
        let d := rneaFwd s q v a i d
        { d with f := upd d.f i (d.f i - fext i) }) s.n d).tau = fun _ => 0 := by
    intro d h0 ht
    apply fwd_ind (P := fun k (d : Data K) => NE s q v a (fun i => s.F (-s.grav) q v a i - fext i) k d
      ∧ d.tau = fun _ => 0) hw.par.1
    · exact ⟨NE.zero q v a _ h0, ht⟩
    · rintro i d h1 hi ⟨ih, iht⟩
      refine ⟨ih.step hw.par hq h1 hi (fext i) ?_ rfl, ?_⟩
      · rw [rneaFwd_f_val hw.par hq h1 hi ih]
      · have := (rneaFwd_proj (v := v) (a := a) d (by have := hw.par.2 i h1 hi; omega)
          (hq.jt i h1 hi)).2.2.2.2.2
        show (rneaFwd s q v a i d).tau = _
        rw [this, iht]
  unfold rneaFext
  obtain ⟨hNE, ht⟩ := hfwd { d with tau := fun _ => 0, v := upd d.v 0 0, a_gf := upd d.a_gf 0 (-s.grav) }
    (upd_self d.a_gf 0 _) rfl
  have hFT := rneaBwd_ok hw.par hNE.li hNE.f ht
  dsimp only
  rw [Sys.dotv_add, hFT.power hw w]

theorem rnea_power (hw : s.WF) (d : Data K) {q : ℕ → K} (hq : s.At q) (v a w : ℕ → K) :
    s.dotv w (rnea s d q v a).tau
      = (∑ i ∈ Ico 1 s.n, (s.V q w i).dot (s.F (-s.grav) q v a i))
        + s.dotv w (fun r => s.arm r * a r) := by
  have hfwd : ∀ d : Data K, d.a_gf 0 = -s.grav → d.tau = (fun _ => 0) →
      NE s q v a (fun i => s.F (-s.grav) q v a i) s.n (fwd (rneaFwd s q v a) s.n d) ∧
      (fwd (rneaFwd s q v a) s.n d).tau = fun _ => 0 := by
    intro d h0 ht
    apply fwd_ind (P := fun k (d : Data K) => NE s q v a (fun i => s.F (-s.grav) q v a i) k d
      ∧ d.tau = fun _ => 0) hw.par.1
    · exact ⟨NE.zero q v a _ h0, ht⟩
    · rintro i d h1 hi ⟨ih, iht⟩
      refine ⟨ih.step hw.par hq h1 hi 0 ?_ ?_, ?_⟩
      · rw [rneaFwd_f_val hw.par hq h1 hi ih, sub_zero]
      · rw [sub_zero, upd, Function.update_eq_self]
      · have := (rneaFwd_proj (v := v) (a := a) d (by have := hw.par.2 i h1 hi; omega)
          (hq.jt i h1 hi)).2.2.2.2.2
        rw [this, iht]
  unfold rnea
  obtain ⟨hNE, ht⟩ := hfwd { d with tau := fun _ => 0, v := upd d.v 0 0, a_gf := upd d.a_gf 0 (-s.grav) }
    (upd_self d.a_gf 0 _) rfl
  have hFT := rneaBwd_ok hw.par hNE.li hNE.f ht
  dsimp only
  rw [Sys.dotv_add, hFT.power hw w]

theorem nleFwd_step (hp : ParOk s.par s.n) {q : ℕ → K} (hq : s.At q) {v : ℕ → K}
    {i : ℕ} {d : Data K} (h1 : 1 ≤ i) (hi : i < s.n)
    (h : NE s q v (fun _ => 0) (s.F (-s.grav) q v (fun _ => 0)) i d) :
    NE s q v (fun _ => 0) (s.F (-s.grav) q v (fun _ => 0)) (i + 1) (nleFwd s q v i d)
      ∧ (nleFwd s q v i d).nle = d.nle := by
  have hpi := hp.2 i h1 hi
  have hne : s.par i ≠ i := by omega
  have hvel : (s.jt i).v (s.qs q i) (s.vs v i) = s.jvel q v i := (hq.jt i h1 hi).vel _
  have e1 : (nleFwd s q v i d).liMi = upd d.liMi i (s.X q i) := by
    simp only [nleFwd, upd_self, Joint.calcV]; split <;> rfl
  have e2 : (nleFwd s q v i d).joints
      = upd d.joints i ((s.jt i).calcV (s.qs q i) (s.vs v i) (d.joints i)) := by
    simp only [nleFwd]; split <;> rfl
  have e3 : (nleFwd s q v i d).v = upd d.v i
      (if s.par i > 0 then s.jvel q v i + (s.X q i).actInv (d.v (s.par i)) else s.jvel q v i) := by
    by_cases hc : s.par i > 0
    · simp only [nleFwd, hc, if_true, upd_self, upd_ne _ _ hne, Joint.calcV, hvel, Function.update_idem]; rfl
    · simp only [nleFwd, hc, if_false, upd_self, Joint.calcV, hvel]
  have ev : (nleFwd s q v i d).v i = s.V q v i := by
    rw [e3, upd_self]; exact v_code hp h1 hi h.v
  have e4 : (nleFwd s q v i d).a_gf = upd d.a_gf i (s.cb q v i
      + ((nleFwd s q v i d).v i).cross (s.jvel q v i) + (s.X q i).actInv (d.a_gf (s.par i))) := by
    by_cases hc : s.par i > 0
    · simp only [nleFwd, hc, if_true, upd_self, upd_ne _ _ hne, Joint.calcV, hvel, Function.update_idem]; rfl
    · simp only [nleFwd, hc, if_false, upd_self, upd_ne _ _ hne, Joint.calcV, hvel, Function.update_idem]; rfl
  have e5 : (nleFwd s q v i d).f = upd d.f i ((s.Y i).mul ((nleFwd s q v i d).a_gf i)
      + (s.Y i).vxiv ((nleFwd s q v i d).v i)) := by
    simp only [nleFwd]; split <;> rfl
  have e6 : (nleFwd s q v i d).nle = d.nle := by
    simp only [nleFwd]; split <;> rfl
  have ea : (nleFwd s q v i d).a_gf i = s.A (-s.grav) q v (fun _ => 0) i := by
    rw [e4, upd_self, ev, h.a _ hpi, s.A_step h1 hpi, s.jvel_zero]; abel
  refine ⟨⟨fun j hj1 hj => ?_, fun j hj => ?_, fun j hj1 hj => ?_, fun j hj1 hj => ?_⟩, e6⟩
  · by_cases hji : j = i
    · subst hji; rw [e1, e2, upd_self, upd_self]; exact ⟨rfl, rfl⟩
    · rw [e1, e2, upd_ne _ _ hji, upd_ne _ _ hji]; exact h.li j hj1 (by omega)
  · by_cases hji : j = i
    · subst hji; exact ea
    · rw [e4, upd_ne _ _ hji]; exact h.a j (by omega)
  · by_cases hji : j = i
    · subst hji; exact ev
    · rw [e3, upd_ne _ _ hji]; exact h.v j hj1 (by omega)
  · by_cases hji : j = i
    · subst hji; rw [e5, upd_self, ea, ev, Inertia.vxiv_eq]; rfl
    · rw [e5, upd_ne _ _ hji]; exact h.f j hj1 (by omega)

theorem nle_power (hw : s.WF) (d : Data K) {q : ℕ → K} (hq : s.At q) (v w : ℕ → K) :
    s.dotv w (nonLinearEffects s d q v).nle
      = ∑ i ∈ Ico 1 s.n, (s.V q w i).dot (s.F (-s.grav) q v (fun _ => 0) i) := by
  unfold nonLinearEffects
  have hfwd : ∀ d : Data K, d.a_gf 0 = -s.grav → d.nle = (fun _ => 0) →
      NE s q v (fun _ => 0) (s.F (-s.grav) q v (fun _ => 0)) s.n (fwd (nleFwd s q v) s.n d)
      ∧ (fwd (nleFwd s q v) s.n d).nle = fun _ => 0 := by
    intro d h0 ht
    apply fwd_ind (P := fun k (d : Data K) => NE s q v (fun _ => 0) (s.F (-s.grav) q v (fun _ => 0)) k d
      ∧ d.nle = fun _ => 0) hw.par.1
    · exact ⟨NE.zero q v _ _ h0, ht⟩
    · rintro i d h1 hi ⟨ih, iht⟩
      obtain ⟨a, b⟩ := nleFwd_step hw.par hq h1 hi ih
      exact ⟨a, by rw [b, iht]⟩
  obtain ⟨hNE, ht⟩ := hfwd { d with nle := fun _ => 0, v := upd d.v 0 0, a_gf := upd d.a_gf 0 (-s.grav) }
    (upd_self d.a_gf 0 _) rfl
  exact (nleBwd_ok hw.par hNE.li hNE.f ht).power hw w

/-- the gravity field seen from body `i` -/
def Sys.base (s : Sys K) (q : ℕ → K) : ℕ → Motion K :=
  treeRec s.par (-s.grav) (fun i x => (s.X q i).actInv x)

/-- state of the gravity forward pass -/
structure GE (s : Sys K) (q : ℕ → K) (F : ℕ → Force K) (k : ℕ) (d : Data K) : Prop where
  li : ∀ i, 1 ≤ i → i < k → d.liMi i = s.X q i ∧ (d.joints i).S = s.S q i
  a : ∀ i, i < k → d.a_gf i = s.base q i
  f : ∀ i, 1 ≤ i → i < k → d.f i = F i

theorem GE.zero (q : ℕ → K) (F : ℕ → Force K) {d : Data K} (h : d.a_gf 0 = -s.grav) :
    GE s q F 1 d := by
  refine ⟨fun i h1 hi => by omega, fun i hi => ?_, fun i h1 hi => by omega⟩
  have : i = 0 := by omega
  subst this; rw [Sys.base, treeRec_zero, h]

theorem GE.step (hp : ParOk s.par s.n) {q : ℕ → K} {F : ℕ → Force K} {i : ℕ} {d : Data K} (h1 : 1 ≤ i)
    (hi : i < s.n) (h : GE s q F i d) (Fi : Force K) (hF : F i = (s.Y i).mul (s.base q i) - Fi)
    {d' : Data K} (hd' : d' = { (gravFwd s q i d) with
      f := upd (gravFwd s q i d).f i ((gravFwd s q i d).f i - Fi) }) : GE s q F (i + 1) d' := by
  have hpi := hp.2 i h1 hi
  have hne : s.par i ≠ i := by omega
  subst hd'
  have eb : s.base q i = (s.X q i).actInv (s.base q (s.par i)) := treeRec_step _ _ h1 hpi
  refine ⟨fun j hj1 hj => ?_, fun j hj => ?_, fun j hj1 hj => ?_⟩
  · by_cases hji : j = i
    · subst hji; simp only [gravFwd, upd_self, Joint.calc]; exact ⟨rfl, rfl⟩
    · simp only [gravFwd, upd_ne _ _ hji]; exact h.li j hj1 (by omega)
  · by_cases hji : j = i
    · subst hji; simp only [gravFwd, upd_self, Joint.calc]; rw [eb, h.a _ hpi]; rfl
    · simp only [gravFwd, upd_ne _ _ hji]; exact h.a j (by omega)
  · by_cases hji : j = i
    · subst hji; simp only [gravFwd, upd_self, Joint.calc]; rw [hF, eb, h.a _ hpi]; rfl
    · simp only [gravFwd, upd_ne _ _ hji]; exact h.f j hj1 (by omega)

theorem grav_power (hw : s.WF) (d : Data K) (q w : ℕ → K) :
    s.dotv w (computeGeneralizedGravity s d q).g
      = ∑ i ∈ Ico 1 s.n, (s.V q w i).dot ((s.Y i).mul (s.base q i)) := by
  unfold computeGeneralizedGravity
  have hfwd : ∀ d : Data K, d.a_gf 0 = -s.grav →
      GE s q (fun i => (s.Y i).mul (s.base q i)) s.n (fwd (gravFwd s q) s.n d) := by
    intro d h0
    apply fwd_ind (P := fun k (d : Data K) => GE s q (fun i => (s.Y i).mul (s.base q i)) k d) hw.par.1
    · exact GE.zero q _ h0
    · rintro i d h1 hi ih
      refine ih.step hw.par h1 hi 0 (by rw [sub_zero]) ?_
      rw [sub_zero, upd, Function.update_eq_self]
  have hGE := hfwd { d with g := fun _ => 0, a_gf := upd d.a_gf 0 (-s.grav) } (upd_self d.a_gf 0 _)
  dsimp only
  refine FT.power hw (gravBwd_ok hw.par ?_ ?_ rfl) w
  · exact hGE.li
  · exact hGE.f

theorem static_power (hw : s.WF) (d : Data K) (q : ℕ → K) (fext : ℕ → Force K) (w : ℕ → K) :
    s.dotv w (computeStaticTorque s d q fext).tau
      = ∑ i ∈ Ico 1 s.n, (s.V q w i).dot ((s.Y i).mul (s.base q i) - fext i) := by
  unfold computeStaticTorque
  have hfwd : ∀ d : Data K, d.a_gf 0 = -s.grav →
      GE s q (fun i => (s.Y i).mul (s.base q i) - fext i) s.n (fwd (fun i d =>
        let d := gravFwd s q i d
        { d with f := upd d.f i (d.f i - fext i) }) s.n d) := by
    intro d h0
    apply fwd_ind (P := fun k (d : Data K) => GE s q (fun i => (s.Y i).mul (s.base q i) - fext i) k d) hw.par.1
    · exact GE.zero q _ h0
    · rintro i d h1 hi ih
      exact ih.step hw.par h1 hi (fext i) rfl rfl
  have hGE := hfwd { d with a_gf := upd d.a_gf 0 (-s.grav) } (upd_self d.a_gf 0 _)
  dsimp only
  refine FT.power hw (rneaBwd_ok hw.par ?_ ?_ rfl) w
  · exact hGE.li
  · exact hGE.f

end Pin
