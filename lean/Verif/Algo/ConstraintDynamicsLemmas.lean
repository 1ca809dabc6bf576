import Verif.Algo.ConstraintDynamics
import Verif.Props.ContactCholesky
import Verif.Props.RneaDerivatives

/-! # Lemmas for `Algo/ConstraintDynamics.lean` -/

set_option linter.unusedSectionVars false

namespace Pin
open Finset
universe u
variable {K : Type u}

/-! ## the passes compute what `crba` computes -/

section
variable [Field K] [LinearOrder K] [HasEps K] {s : Sys K}

/-- the fields that the composite rigid body algorithm uses, in `d0` -/
def crbaView (d0 d : Data K) : Data K :=
  { d0 with
    joints := fun i => { d0.joints i with M := (d.joints i).M, S := (d.joints i).S }
    liMi := d.liMi, oMi := d.oMi, J := d.J, oYcrb := d.oYcrb, M := d.M, Ag := d.dFda }

theorem crbaView_self (d : Data K) : crbaView d d = { d with Ag := d.dFda } := rfl

theorem rcFwdA_core (q v : ℕ → K) (i : ℕ) (d : Data K) :
    let x := rcFwdA s q v i d
    x.joints = upd d.joints i ((s.jt i).calcV (s.qs q i) (s.vs v i) (d.joints i)) ∧ x.liMi = upd d.liMi i (s.X q i) ∧
    x.oMi = upd d.oMi i (if s.par i > 0 then d.oMi (s.par i) * s.X q i else s.X q i) ∧
    x.J = putSeg d.J (s.iv i) (s.jnv i) (fun k => (x.oMi i).act (s.S q i k)) ∧
    x.oinertias = upd d.oinertias i ((s.Y i).act (x.oMi i)) ∧ x.oYcrb = upd d.oYcrb i ((s.Y i).act (x.oMi i)) ∧
    x.M = d.M ∧ x.dFda = d.dFda ∧ x.nle = d.nle := by
  intro x
  have e1 : x.joints = upd d.joints i ((s.jt i).calcV (s.qs q i) (s.vs v i) (d.joints i)) := rfl
  have e2 : x.liMi = upd d.liMi i (s.pl i * (x.joints i).M) := rfl
  have e2' : x.liMi i = s.X q i := by rw [e2, upd_self, e1, upd_self]; rfl
  have e3 : x.oMi = upd d.oMi i (if s.par i > 0 then d.oMi (s.par i) * x.liMi i else x.liMi i) := rfl
  have e4 : x.J = putSeg d.J (s.iv i) (s.jnv i) (fun k => (x.oMi i).act ((x.joints i).S k)) := rfl
  have e5 : x.oinertias = upd d.oinertias i ((s.Y i).act (x.oMi i)) := rfl
  have e6 : x.oYcrb = upd d.oYcrb i (x.oinertias i) := rfl
  refine ⟨e1, ?_, ?_, ?_, e5, ?_, rfl, rfl, rfl⟩
  · rw [e2, ← e2', e2, upd_self]
  · rw [e3, e2']
  · rw [e4, e1, upd_self]; rfl
  · rw [e6, e5, upd_self]

theorem rcFwd_core (contact : Bool) (q v : ℕ → K) (i : ℕ) (d : Data K) :
    let x := rcFwd s contact q v i d
    let y := rcFwdA s q v i d
    x.joints = y.joints ∧ x.liMi = y.liMi ∧ x.oMi = y.oMi ∧ x.J = y.J ∧ x.ov = y.ov ∧ x.oYcrb = y.oYcrb ∧
    x.M = y.M ∧ x.dFda = y.dFda ∧ x.nle = y.nle := by
  unfold rcFwd
  cases contact
  · exact ⟨rfl, rfl, rfl, rfl, rfl, rfl, rfl, rfl, rfl⟩
  · exact ⟨rfl, rfl, rfl, rfl, rfl, rfl, rfl, rfl, rfl⟩

theorem rcFwd_view (contact : Bool) (q v : ℕ → K) (d0 : Data K) (i : ℕ) (d : Data K) :
    crbaView d0 (rcFwd s contact q v i d) = crbaWorldFwd s q i (crbaView d0 d) := by
  obtain ⟨f1, f2, f3, f4, -, f6, f7, f8, -⟩ := rcFwd_core (s := s) contact q v i d
  obtain ⟨e1, e2, e3, e4, -, e6, e7, e8, -⟩ := rcFwdA_core (s := s) q v i d
  have ex : crbaView d0 (rcFwd s contact q v i d) = crbaView d0 (rcFwdA s q v i d) := by
    unfold crbaView
    rw [f1, f2, f3, f4, f6, f7, f8]
  rw [ex]
  generalize rcFwdA s q v i d = x at *
  set y := crbaWorldFwd s q i (crbaView d0 d) with hy
  have y1 : y.joints = upd (crbaView d0 d).joints i ((s.jt i).calc (s.qs q i) ((crbaView d0 d).joints i)) := rfl
  have y2 : y.liMi = upd d.liMi i (s.pl i * (y.joints i).M) := rfl
  have y2' : y.liMi i = s.X q i := by rw [y2, upd_self, y1, upd_self]; rfl
  have y3 : y.oMi = upd d.oMi i (if s.par i > 0 then d.oMi (s.par i) * y.liMi i else y.liMi i) := rfl
  have y4 : y.J = putSeg d.J (s.iv i) (s.jnv i) (fun k => (y.oMi i).act ((y.joints i).S k)) := rfl
  have y5 : y.oYcrb = upd d.oYcrb i ((s.Y i).act (y.oMi i)) := rfl
  have hl : x.liMi = y.liMi := by rw [e2, ← y2', y2, upd_self]
  have ho : x.oMi = y.oMi := by rw [e3, y3, y2']
  have hJ : x.J = y.J := by rw [e4, y4, ho, y1, upd_self]; rfl
  have hY : x.oYcrb = y.oYcrb := by rw [e6, y5, ho]
  have hj : (crbaView d0 x).joints = y.joints := by
    funext k
    change { d0.joints k with M := (x.joints k).M, S := (x.joints k).S } = _
    rw [e1, y1]
    by_cases hk : k = i
    · subst hk; rw [upd_self, upd_self]; rfl
    · rw [upd_ne _ _ hk, upd_ne _ _ hk]; rfl
  have key : y = { d0 with joints := y.joints, liMi := y.liMi, oMi := y.oMi, J := y.J, oYcrb := y.oYcrb, M := d.M, Ag := d.dFda } := rfl
  rw [key, ← hj, ← hl, ← ho, ← hJ, ← hY, ← e7, ← e8]
  rfl

theorem rcBwd_view (contact : Bool) (d0 : Data K) (i : ℕ) (d : Data K) :
    crbaView d0 (rcBwd s contact i d) = crbaWorldBwd s i (crbaView d0 d) := by
  unfold rcBwd
  cases contact
  · rfl
  · rfl

/-- the passes up to the armature, seen by `crba` -/
theorem passes_view (contact : Bool) (q v : ℕ → K) (d : Data K) (d0 : Data K) :
    crbaView d0 (bwd (rcBwd s contact) s.n (fwd (rcFwd s contact q v) s.n d))
      = bwd (crbaWorldBwd s) s.n (fwd (crbaWorldFwd s q) s.n (crbaView d0 d)) := by
  rw [(bwd_proj (crbaView d0) (fun _ => True) trivial fun i e _ _ _ => ⟨trivial, rcBwd_view contact d0 i e⟩).2,
    (fwd_proj (crbaView d0) (fun _ => True) trivial fun i e _ _ _ => ⟨trivial, rcFwd_view contact q v d0 i e⟩).2]

/-- placements, columns, mass matrix, centroidal map and centre of mass are those that `crba` leaves in a `Data` whose
`Ag` is `data.dFda` -/
theorem passes_crba (contact : Bool) (q v : ℕ → K) (d : Data K) (h0 : d.oYcrb 0 = 0) :
    let x := rcAg s (addArmature s (bwd (rcBwd s contact) s.n (fwd (rcFwd s contact q v) s.n d)))
    let w := crbaWorld s { d with Ag := d.dFda } q
    x.M = w.M ∧ x.J = w.J ∧ x.oMi = w.oMi ∧ x.Ag = w.Ag ∧ x.com 0 = w.com 0 := by
  have hv := passes_view (s := s) contact q v d d
  have hd : crbaView d d = { { d with Ag := d.dFda } with oYcrb := upd d.oYcrb 0 0 } := by
    have : upd d.oYcrb 0 0 = d.oYcrb := by
      funext j; by_cases e : j = 0
      · subst e; rw [upd_self, h0]
      · rw [upd_ne _ _ e]
    rw [this]; rfl
  rw [hd] at hv
  unfold crbaWorld
  dsimp only
  rw [← hv]
  generalize bwd (rcBwd s contact) s.n (fwd (rcFwd s contact q v) s.n d) = x
  refine ⟨rfl, rfl, rfl, ?_, ?_⟩
  · unfold rcAg addArmature crbaView
    dsimp only
    rw [upd_self, upd_self]
  · unfold rcAg addArmature crbaView
    dsimp only
    rw [upd_self, upd_self]

/-! ## `compute` depends on the mass matrix, the columns and the placements -/

theorem compute_congr {d1 d2 : Data K} (h1 : d1.M = d2.M) (h2 : d1.J = d2.J) (h3 : d1.oMi = d2.oMi) (t : CTab)
    (ms : List (RCM K)) (mus : ℕ → K) (x : Chol K) : t.compute s d1 ms mus x = t.compute s d2 ms mus x := by
  have hc : ∀ m : RCM K, m.calc d1 = m.calc d2 := fun m => by unfold RCM.calc; rw [h3]
  have hj : ∀ (m : RCM K) c X, m.jacobian s d1 c X = m.jacobian s d2 c X := fun m c X => by
    unfold RCM.jacobian; rw [h2]
  unfold CTab.compute CTab.fill
  simp only [h1, hc, hj]

theorem stackJac_congr {d1 d2 : Data K} (h2 : d1.J = d2.J) (h3 : d1.oMi = d2.oMi) (ms : List (RCM K)) :
    stackJac s d1 ms = stackJac s d2 ms := by
  have hc : ∀ m : RCM K, m.calc d1 = m.calc d2 := fun m => by unfold RCM.calc; rw [h3]
  have hj : ∀ (m : RCM K) c X, m.jacobian s d1 c X = m.jacobian s d2 c X := fun m c X => by
    unfold RCM.jacobian; rw [h2]
  induction ms with
  | nil => rfl
  | cons m ms ih =>
    funext r k
    have es : ∀ d : Data K, stackJac s d (m :: ms) r k = if r < m.type.dim then
      m.jacobian s d (m.calc d) (fun _ _ => 0) r k else stackJac s d ms (r - m.type.dim) k := fun d => rfl
    rw [es, es, ih, hc, hj]

/-! ## velocities, accelerations and forces -/

/-- what the forward pass leaves, joints below `m` -/
structure CDV (s : Sys K) (q v : ℕ → K) (m : ℕ) (d : Data K) : Prop where
  pl : PlOk s q m d
  J : ∀ i, 1 ≤ i → i < m → ∀ l, l < s.jnv i → d.J (s.iv i + l) = s.Jc q i l
  ov : ∀ i, 1 ≤ i → i < m → d.ov i = s.oV q v i

theorem rcFwdA_step (h : s.Packed) {q : ℕ → K} (hq : s.At q) (v : ℕ → K) {i : ℕ} (h1 : 1 ≤ i) (hi : i < s.n) {d : Data K}
    (ih : CDV s q v i d) : CDV s q v (i + 1) (rcFwdA s q v i d) := by
  have hpi := h.par.2 i h1 hi
  obtain ⟨e1, e2, e3, e4, -⟩ := rcFwdA_core (s := s) q v i d
  have eo : (rcFwdA s q v i d).oMi i = s.oM q i := by
    rw [e3, upd_self]
    exact oM_code h.par h1 hi (o := d.oMi) (fun j a b => (ih.pl j a b).2.1)
  have hvel : (s.jt i).v (s.qs q i) (s.vs v i) = s.jvel q v i := (hq.jt i h1 hi).vel _
  have e0 : (rcFwdA s q v i d).ov
      = if s.par i > 0 then upd (upd d.ov i (((rcFwdA s q v i d).oMi i).act ((rcFwdA s q v i d).joints i).v)) i
          (upd d.ov i (((rcFwdA s q v i d).oMi i).act ((rcFwdA s q v i d).joints i).v) i
            + upd d.ov i (((rcFwdA s q v i d).oMi i).act ((rcFwdA s q v i d).joints i).v) (s.par i))
        else upd d.ov i (((rcFwdA s q v i d).oMi i).act ((rcFwdA s q v i d).joints i).v) := rfl
  have ej : ((rcFwdA s q v i d).oMi i).act ((rcFwdA s q v i d).joints i).v = s.oj q v i := by
    rw [eo, e1, upd_self]
    change (s.oM q i).act ((s.jt i).v (s.qs q i) (s.vs v i)) = _
    rw [hvel]; rfl
  have hne : s.par i ≠ i := by omega
  rw [ej] at e0
  refine ⟨?_, ?_, ?_⟩
  · intro j j1 hj
    by_cases e : j = i
    · subst e
      refine ⟨by rw [e2, upd_self], eo, by rw [e1, upd_self]; rfl, by rw [e1, upd_self]; rfl⟩
    · rw [e2, e3, e1, upd_ne _ _ e, upd_ne _ _ e, upd_ne _ _ e]
      exact ih.pl j j1 (by omega)
  · intro j j1 hj l hl
    rw [e4]
    by_cases e : j = i
    · subst e; rw [putSeg_at _ _ hl, eo]; rfl
    · rw [h.putSeg_ne _ _ h1 hi j1 (by omega) hl e]
      exact ih.J j j1 (by omega) l hl
  · intro j j1 hj
    rw [e0]
    by_cases e : j = i
    · subst e
      rw [Sys.oV_step' h.par hq v h1 hi]
      split
      · rename_i hp
        rw [upd_self, upd_self, upd_ne _ _ hne, ih.ov _ hp hpi]
      · rename_i hp
        rw [upd_self, show s.par j = 0 by omega, oV_zero', add_zero]
    · split
      · rw [upd_ne _ _ e, upd_ne _ _ e]; exact ih.ov j j1 (by omega)
      · rw [upd_ne _ _ e]; exact ih.ov j j1 (by omega)

theorem rcFwd_false_ok (h : s.Packed) {q : ℕ → K} (hq : s.At q) (v : ℕ → K) (d : Data K) :
    CDV s q v s.n (fwd (rcFwd s false q v) s.n d) := by
  apply fwd_ind (P := fun k (d : Data K) => CDV s q v k d) h.par.1
  · constructor <;> intro i a b <;> omega
  · intro i d h1 hi ih
    exact rcFwdA_step h hq v h1 hi ih

/-- with the accelerations and forces -/
structure CDF (s : Sys K) (q v : ℕ → K) (m : ℕ) (d : Data K) : Prop extends CDV s q v m d where
  v0 : d.ov 0 = 0
  oa : ∀ i, i < m → d.oa i = s.wA 0 q v (fun _ => 0) i
  of : ∀ i, 1 ≤ i → i < m → d.of i = s.oF (-s.grav) q v (fun _ => 0) (fun _ => 0) i

theorem Sys.oj_zero (q : ℕ → K) (i : ℕ) : s.oj q (fun _ => 0) i = 0 := by
  have : s.jvel q (fun _ => 0) i = 0 := by
    unfold Sys.jvel comb
    exact sum_eq_zero fun k _ => by ext <;> simp [Sys.vs, seg]
  unfold Sys.oj
  rw [this]; simp

theorem rcFwd_true_step (h : s.Packed) {q : ℕ → K} (hq : s.At q) (v : ℕ → K) {i : ℕ} (h1 : 1 ≤ i) (hi : i < s.n) {d : Data K}
    (ih : CDF s q v i d) : CDF s q v (i + 1) (rcFwd s true q v i d) := by
  have hpi := h.par.2 i h1 hi
  have hne : s.par i ≠ i := by omega
  have hA := rcFwdA_step h hq v h1 hi ih.toCDV
  obtain ⟨e1, -, e3, -, e5, -⟩ := rcFwdA_core (s := s) q v i d
  have ev0 : (rcFwdA s q v i d).ov 0 = 0 := by
    have e0 : (rcFwdA s q v i d).ov
        = if s.par i > 0 then upd (upd d.ov i (((rcFwdA s q v i d).oMi i).act ((rcFwdA s q v i d).joints i).v)) i
            (upd d.ov i (((rcFwdA s q v i d).oMi i).act ((rcFwdA s q v i d).joints i).v) i
              + upd d.ov i (((rcFwdA s q v i d).oMi i).act ((rcFwdA s q v i d).joints i).v) (s.par i))
          else upd d.ov i (((rcFwdA s q v i d).oMi i).act ((rcFwdA s q v i d).joints i).v) := rfl
    rw [e0]
    split
    · rw [upd_ne _ _ (by omega), upd_ne _ _ (by omega)]; exact ih.v0
    · rw [upd_ne _ _ (by omega)]; exact ih.v0
  have eoa : (rcFwdA s q v i d).oa = d.oa := rfl
  have eof : (rcFwdA s q v i d).of = d.of := rfl
  have ec : ((rcFwdA s q v i d).oMi i).act ((rcFwdA s q v i d).joints i).c = (s.oM q i).act (s.cb q v i) := by
    rw [(hA.pl i h1 (by omega)).2.1, e1, upd_self]; rfl
  have eY : (rcFwdA s q v i d).oinertias i = (s.Y i).act (s.oM q i) := by
    rw [e5, upd_self, (hA.pl i h1 (by omega)).2.1]
  have x0 : rcFwd s true q v i d = rcFwdB s i (rcFwdA s q v i d) := rfl
  rw [x0]
  generalize rcFwdA s q v i d = y at *
  have evi := hA.ov i h1 (by omega)
  set x := rcFwdB s i y with hx
  have b1 : x.oh = upd y.oh i ((y.oinertias i).mul (y.ov i)) := rfl
  have b2 : x.oa = if s.par i > 0 then
      upd (upd (upd y.oa i ((y.oMi i).act (y.joints i).c)) i (upd y.oa i ((y.oMi i).act (y.joints i).c) i
        + (y.ov (s.par i)).cross (y.ov i))) i
        (upd (upd y.oa i ((y.oMi i).act (y.joints i).c)) i (upd y.oa i ((y.oMi i).act (y.joints i).c) i
          + (y.ov (s.par i)).cross (y.ov i)) i
        + upd (upd y.oa i ((y.oMi i).act (y.joints i).c)) i (upd y.oa i ((y.oMi i).act (y.joints i).c) i
          + (y.ov (s.par i)).cross (y.ov i)) (s.par i))
      else upd y.oa i ((y.oMi i).act (y.joints i).c) := rfl
  have b3 : x.oa_gf = upd y.oa_gf i (x.oa i - s.grav) := rfl
  have b4 : x.of = upd y.of i ((y.oinertias i).mul (x.oa_gf i) + (y.ov i).crossF (x.oh i)) := rfl
  have oai : x.oa i = s.wA 0 q v (fun _ => 0) i := by
    rw [b2, ec, Sys.wA_step h.par hq 0 v _ h1 hi, Sys.oj_zero, zero_add]
    have hs := Sys.oV_step' h.par hq v h1 hi
    split
    · rename_i hp
      rw [upd_self, upd_self, upd_self, upd_ne _ _ hne, upd_ne _ _ hne, eoa, ih.oa _ hpi, hA.ov _ hp (by omega), evi]
      congr 2
      rw [hs]
      ext <;> simp [Motion.cross] <;> ring
    · rename_i hp
      rw [upd_self]
      have hp0 : s.par i = 0 := by omega
      rw [hp0, oV_zero', add_zero] at hs
      rw [hp0, wA_zero', add_zero, hs]
      ext <;> simp [Motion.cross] <;> ring
  have oan : ∀ j, j ≠ i → x.oa j = d.oa j := by
    intro j e
    rw [b2, eoa]
    split
    · rw [upd_ne _ _ e, upd_ne _ _ e, upd_ne _ _ e]
    · rw [upd_ne _ _ e]
  refine ⟨⟨hA.pl, hA.J, hA.ov⟩, ev0, ?_, ?_⟩
  · intro j hj
    by_cases e : j = i
    · subst e; exact oai
    · rw [oan j e]; exact ih.oa j (by omega)
  · intro j j1 hj
    rw [b4]
    by_cases e : j = i
    · subst e
      rw [upd_self, b3, upd_self, b1, upd_self, oai, evi, eY, Sys.oF_eq h.par hq _ _ _ _ hi, SE3.actF_zero, sub_zero,
        Sys.wA_base h.par hq (-s.grav) v _ hi, ← sub_eq_add_neg]
      unfold Sys.oI
      rw [Inertia.matrix_mulMF, Inertia.matrix_mulMF]
    · rw [upd_ne _ _ e, eof]; exact ih.of j j1 (by omega)

theorem rcFwd_true_ok (h : s.Packed) {q : ℕ → K} (hq : s.At q) (v : ℕ → K) {d : Data K} (h0 : d.ov 0 = 0) (ha : d.oa 0 = 0) :
    CDF s q v s.n (fwd (rcFwd s true q v) s.n d) := by
  apply fwd_ind (P := fun k (d : Data K) => CDF s q v k d) h.par.1
  · refine ⟨⟨?_, ?_, ?_⟩, h0, ?_, ?_⟩
    · intro i a b; omega
    · intro i a b; omega
    · intro i a b; omega
    · intro i hi
      rw [show i = 0 by omega, ha, wA_zero']
    · intro i a b; omega
  · intro i d h1 hi ih
    exact rcFwd_true_step h hq v h1 hi ih

/-- the backward pass: what it keeps, and the torques -/
theorem rcBwd_true_ok [IsStrictOrderedRing K] (h : s.Packed) {q : ℕ → K} {v : ℕ → K} {d : Data K} (hd : CDF s q v s.n d) :
    let x := bwd (rcBwd s true) s.n d
    x.ov = d.ov ∧ x.oa = d.oa ∧ x.oMi = d.oMi ∧
    ∀ j, 1 ≤ j → j < s.n → ∀ l, l < s.jnv j →
      x.nle (s.iv j + l) = (s.Jc q j l).dot (s.oFm q v (fun _ => 0) (fun _ => 0) j) := by
  have hp := h.par
  have key := bwd_ind (P := fun k (x : Data K) => (x.J = d.J ∧ x.ov = d.ov ∧ x.oa = d.oa ∧ x.oMi = d.oMi) ∧
      PAcc s.par s.n (fun _ x => x) (s.oF (-s.grav) q v (fun _ => 0) (fun _ => 0)) k x.of ∧
      ∀ j, 1 ≤ j → k ≤ j → j < s.n → ∀ l, l < s.jnv j →
        x.nle (s.iv j + l) = (s.Jc q j l).dot (s.oFm q v (fun _ => 0) (fun _ => 0) j)) (step := rcBwd s true) (d := d)
      (n := s.n) hp.1 ?_ ?_
  · exact ⟨key.1.2.1, key.1.2.2.1, key.1.2.2.2, fun j j1 hj => key.2.2 j j1 j1 hj⟩
  · refine ⟨⟨rfl, rfl, rfl, rfl⟩, ?_, fun j _ _ _ => by omega⟩
    intro i h1 hi
    rw [filter_eq_empty_iff.2, sum_empty, add_zero]
    · exact hd.of i h1 hi
    · intro c hc'; have := (mem_kids.1 hc').1.2; omega
  · rintro i x h1 hi ⟨⟨a1, a2, a3, a4⟩, a5, a6⟩
    have hpi := hp.2 i h1 hi
    have eF := a5.eq_acc hp (Sys.oFm_acc hp q v (fun _ => 0) (fun _ => 0)) i h1 hi le_rfl
    refine ⟨⟨a1, a2, a3, a4⟩, ?_, ?_⟩
    · apply PAcc.step hp h1 hi a5
      intro j j1
      have e : (rcBwd s true i x).of = upd x.of (s.par i) (x.of (s.par i) + x.of i) := rfl
      rw [e]
      split
      · rename_i e; subst e; rw [upd_self]
      · rename_i e; rw [upd_ne _ _ e]
    · intro j j1 hij hj l hl
      have e : (rcBwd s true i x).nle = putSeg x.nle (s.iv i) (s.jnv i) (fun k => (x.J (s.iv i + k)).dot (x.of i)) := rfl
      rw [e]
      by_cases hji : j = i
      · subst hji
        rw [putSeg_at _ _ hl, a1, hd.J j j1 hj l hl, eF]
      · rw [h.putSeg_ne _ _ h1 hi j1 hj hl hji]
        exact a6 j j1 (by omega) hj l hl

end
end Pin
