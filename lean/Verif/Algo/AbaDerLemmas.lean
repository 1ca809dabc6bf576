import Verif.Algo.AbaDerivatives
import Verif.Algo.GravDerLemmas
import Verif.Algo.MinverseLemmas
import Verif.Props.Minverse

/-! # What the passes of the derivatives of the forward dynamics compute -/

set_option linter.unusedSectionVars false

namespace Pin
open Finset
universe u
variable {K : Type u} [Field K] {s : Sys K}

/-! ## the passes contain those of `aba` and of `computeMinverse` -/

theorem abaDerFwd1_eq (q v : ℕ → K) (i : ℕ) (d : Data K) : abaDerFwd1 s q v i d = abaWorldFwd1 s q v i d := by
  unfold abaDerFwd1 abaWorldFwd1
  by_cases hp : s.par i > 0
  · simp only [hp, if_true, upd_self]
  · simp only [hp, if_false, upd_self]

/-- the fields of `computeMinverse` -/
def keepM (d0 e : Data K) : Data K :=
  { d0 with joints := e.joints, J := e.J, oYaba := e.oYaba, Minv := e.Minv, Fcrb := e.Fcrb }

theorem keepM_rows (d0 : Data K) (i : ℕ) (e : Data K) : keepM d0 (minvRows s i e) = minvRows s i (keepM d0 e) := by
  unfold minvRows
  by_cases h1 : s.nvSub i > s.jnv i
  · by_cases h2 : s.par i > 0
    · simp only [h1, h2, if_true, keepM]
    · simp only [h1, h2, if_true, if_false, keepM]
  · simp only [h1, if_false, keepM]

theorem keepM_fwd2 (d0 : Data K) (i : ℕ) (e : Data K) : keepM d0 (minvFwd2 s i e) = minvFwd2 s i (keepM d0 e) := by
  unfold minvFwd2
  by_cases h2 : s.par i > 0
  · simp only [h2, if_true, keepM]
  · simp only [h2, if_false, keepM]

theorem keepM_cols (d0 : Data K) (i : ℕ) (Y : Inertia K) (e : Data K) : keepM d0 (abaDerCols s i Y e) = keepM d0 e := by
  unfold abaDerCols
  by_cases h2 : s.par i > 0
  · simp only [h2, if_true, keepM]
  · simp only [h2, if_false, keepM]

theorem keepM_bwd1 (d0 : Data K) (i : ℕ) (e : Data K) : keepM d0 (abaDerBwd1 s i e) = minvBwd s i (keepM d0 e) := by
  unfold abaDerBwd1 minvBwd
  have := keepM_rows (s := s) d0 i { e with
    u := addSeg e.u (s.iv i) (s.jnv i) (fun k => -(StF (seg e.J (s.iv i)) (e.of i) k))
    joints := upd e.joints i ((e.joints i).calcAba (s.jnv i) (seg e.J (s.iv i)) (seg s.arm (s.iv i)) (e.oYaba i)) }
  by_cases h2 : s.par i > 0
  · simp only [h2, if_true]
    simp only [keepM] at this ⊢
    rw [← this]
  · simp only [h2, if_false]
    exact this

theorem keepM_fwd2' (d0 : Data K) (i : ℕ) (e : Data K) : keepM d0 (abaDerFwd2 s i e) = minvFwd2 s i (keepM d0 e) := by
  unfold abaDerFwd2
  dsimp only
  rw [keepM_cols, keepM_fwd2]
  rfl

theorem keepM_fwd2Opt (d0 : Data K) (i : ℕ) (e : Data K) :
    keepM d0 (abaDerFwd2Opt s i e) = minvFwd2 s i (keepM d0 e) := by
  unfold abaDerFwd2Opt
  dsimp only
  rw [keepM_cols, keepM_fwd2]
  rfl

/-- the fields of `aba` -/
def keepA (d0 e : Data K) : Data K := { e with Minv := d0.Minv, Fcrb := d0.Fcrb }

theorem minvRows_eq (i : ℕ) (e : Data K) :
    minvRows s i e = { e with Minv := (minvRows s i e).Minv, Fcrb := (minvRows s i e).Fcrb } := by
  unfold minvRows
  by_cases h1 : s.nvSub i > s.jnv i
  · by_cases h2 : s.par i > 0
    · simp only [h1, h2, if_true]
    · simp only [h1, h2, if_true, if_false]
  · simp only [h1, if_false]

theorem minvFwd2_eq (i : ℕ) (e : Data K) :
    minvFwd2 s i e = { e with Minv := (minvFwd2 s i e).Minv, Fcrb := (minvFwd2 s i e).Fcrb } := by
  unfold minvFwd2
  by_cases h2 : s.par i > 0
  · simp only [h2, if_true]
  · simp only [h2, if_false]

theorem keepA_bwd1 (d0 : Data K) (i : ℕ) (e : Data K) : keepA d0 (abaDerBwd1 s i e) = abaWorldBwd s i (keepA d0 e) := by
  unfold abaDerBwd1 abaWorldBwd
  dsimp only
  rw [minvRows_eq]
  by_cases h2 : s.par i > 0
  · simp only [h2, if_true, keepA]
  · simp only [h2, if_false, keepA]

/-! ## columns -/

theorem abaDerCols_eq (i : ℕ) (Y : Inertia K) (d : Data K) :
    abaDerCols s i Y d = { d with
      dJ := (abaDerCols s i Y d).dJ
      dVdq := (abaDerCols s i Y d).dVdq
      dAdq := (abaDerCols s i Y d).dAdq
      dAdv := (abaDerCols s i Y d).dAdv
      doYcrb := upd d.doYcrb i (addForceCross (d.oh i) (Y.variation (d.ov i))) } := by
  unfold abaDerCols
  by_cases hp : s.par i > 0
  · simp only [hp, if_true, upd_self, upd_upd]
  · simp only [hp, if_false, upd_self, upd_upd]

theorem abaDerCols_at (i : ℕ) (Y : Inertia K) (d : Data K) {k : ℕ} (hk : k < s.jnv i) :
    let c := s.iv i + k
    (abaDerCols s i Y d).dVdq c = (if s.par i > 0 then (d.ov (s.par i)).cross (d.J c) else 0) ∧
    (abaDerCols s i Y d).dAdq c = (d.oa_gf (s.par i)).cross (d.J c)
      + (if s.par i > 0 then (d.ov (s.par i)).cross ((d.ov (s.par i)).cross (d.J c)) else 0) ∧
    (abaDerCols s i Y d).dAdv c = (d.ov i).cross (d.J c)
      + (if s.par i > 0 then (d.ov (s.par i)).cross (d.J c) else 0) := by
  unfold abaDerCols
  by_cases hp : s.par i > 0
  · simp [hp, putSeg_at _ _ hk]
  · simp [hp, putSeg_at _ _ hk]

theorem abaDerCols_out (i : ℕ) (Y : Inertia K) (d : Data K) {c : ℕ} (hc : ¬ (s.iv i ≤ c ∧ c < s.iv i + s.jnv i)) :
    (abaDerCols s i Y d).dVdq c = d.dVdq c ∧ (abaDerCols s i Y d).dAdq c = d.dAdq c ∧
      (abaDerCols s i Y d).dAdv c = d.dAdv c := by
  unfold abaDerCols
  by_cases hp : s.par i > 0
  · simp only [hp, if_true, putSeg_out _ _ hc, and_self]
  · simp only [hp, if_false, putSeg_out _ _ hc, and_self]

/-- what the second forward pass leaves, joints below `m` -/
structure D3 (s : Sys K) (fext : ℕ → Force K) (m : ℕ) (e : Data K) : Prop where
  of : ∀ i, 1 ≤ i → i < m → e.of i
    = (e.oYcrb i).mul (e.oa_gf i) + (e.ov i).crossF (e.oh i) - (e.oMi i).actF (fext i)
  B : ∀ i, 1 ≤ i → i < m → e.doYcrb i = addForceCross (e.oh i) ((e.oYcrb i).variation (e.ov i))
  dVq : ∀ i, 1 ≤ i → i < m → ∀ k, k < s.jnv i → e.dVdq (s.iv i + k)
    = if s.par i > 0 then (e.ov (s.par i)).cross (e.J (s.iv i + k)) else 0
  dAq : ∀ i, 1 ≤ i → i < m → ∀ k, k < s.jnv i → e.dAdq (s.iv i + k) = (e.oa_gf (s.par i)).cross (e.J (s.iv i + k))
      + (if s.par i > 0 then (e.ov (s.par i)).cross ((e.ov (s.par i)).cross (e.J (s.iv i + k))) else 0)
  dAv : ∀ i, 1 ≤ i → i < m → ∀ k, k < s.jnv i → e.dAdv (s.iv i + k) = (e.ov i).cross (e.J (s.iv i + k))
      + (if s.par i > 0 then (e.ov (s.par i)).cross (e.J (s.iv i + k)) else 0)

theorem D3.zero (fext : ℕ → Force K) (e : Data K) : D3 s fext 1 e := by
  constructor <;> intro i a b <;> omega

theorem D3.step (h : s.Packed) {fext : ℕ → Force K} {i : ℕ} (h1 : 1 ≤ i) (hi : i < s.n) {d d1 e : Data K} {Y : Inertia K}
    (ih : D3 s fext i d)
    (hk : d1.J = d.J ∧ d1.ov = d.ov ∧ d1.oh = d.oh ∧ d1.oMi = d.oMi ∧ d1.doYcrb = d.doYcrb ∧ d1.dVdq = d.dVdq ∧
      d1.dAdq = d.dAdq ∧ d1.dAdv = d.dAdv)
    (hYi : d1.oYcrb i = Y) (hne : ∀ j, j ≠ i → d1.oYcrb j = d.oYcrb j ∧ d1.oa_gf j = d.oa_gf j)
    (he : e = { abaDerCols s i Y d1 with of := e.of }) (hf : ∀ j, j ≠ i → e.of j = d.of j)
    (hfi : e.of i = Y.mul (d1.oa_gf i) + (d1.ov i).crossF (d1.oh i) - (d1.oMi i).actF (fext i)) :
    D3 s fext (i + 1) e := by
  have hpi := h.par.2 i h1 hi
  obtain ⟨k1, k2, k3, k4, k5, k6, k7, k8⟩ := hk
  have ne : ∀ j, 1 ≤ j → j < s.n → j ≠ i → ∀ k, k < s.jnv j → ¬ (s.iv i ≤ s.iv j + k ∧ s.iv j + k < s.iv i + s.jnv i) := by
    rintro j j1 hj e k hk ⟨x, y⟩
    exact e (h.inj j1 hj h1 hi hk (l := s.iv j + k - s.iv i) (by omega) (by omega)).1
  have eq := abaDerCols_eq (s := s) i Y d1
  have f1 : e.oYcrb = d1.oYcrb := by rw [he, eq]
  have f2 : e.oa_gf = d1.oa_gf := by rw [he, eq]
  have f3 : e.ov = d1.ov := by rw [he, eq]
  have f4 : e.oh = d1.oh := by rw [he, eq]
  have f5 : e.oMi = d1.oMi := by rw [he, eq]
  have f6 : e.J = d1.J := by rw [he, eq]
  have f7 : e.doYcrb = upd d1.doYcrb i (addForceCross (d1.oh i) (Y.variation (d1.ov i))) := by rw [he, eq]
  have g1 : e.dVdq = (abaDerCols s i Y d1).dVdq := by rw [he]
  have g2 : e.dAdq = (abaDerCols s i Y d1).dAdq := by rw [he]
  have g3 : e.dAdv = (abaDerCols s i Y d1).dAdv := by rw [he]
  constructor
  · intro j j1 hj
    by_cases ej : j = i
    · subst ej; rw [hfi, f1, f2, f3, f4, f5, hYi]
    · rw [hf j ej, f1, f2, f3, f4, f5, (hne j ej).1, (hne j ej).2, k2, k3, k4]; exact ih.of j j1 (by omega)
  · intro j j1 hj
    by_cases ej : j = i
    · subst ej; rw [f7, upd_self, f1, f3, f4, hYi]
    · rw [f7, upd_ne _ _ ej, f1, f3, f4, (hne j ej).1, k2, k3, k5]; exact ih.B j j1 (by omega)
  · intro j j1 hj k hk
    by_cases ej : j = i
    · subst ej; rw [g1, (abaDerCols_at j Y d1 hk).1, f3, f6]
    · rw [g1, (abaDerCols_out i Y d1 (ne j j1 (by omega) ej k hk)).1, f3, f6, k1, k2, k6]
      exact ih.dVq j j1 (by omega) k hk
  · intro j j1 hj k hk
    have hpj := h.par.2 j j1 (by omega)
    by_cases ej : j = i
    · subst ej; rw [g2, (abaDerCols_at j Y d1 hk).2.1, f2, f3, f6]
    · rw [g2, (abaDerCols_out i Y d1 (ne j j1 (by omega) ej k hk)).2.1, f2, f3, f6, k1, k2, k7,
        (hne (s.par j) (by omega)).2]
      exact ih.dAq j j1 (by omega) k hk
  · intro j j1 hj k hk
    by_cases ej : j = i
    · subst ej; rw [g3, (abaDerCols_at j Y d1 hk).2.2, f3, f6]
    · rw [g3, (abaDerCols_out i Y d1 (ne j j1 (by omega) ej k hk)).2.2, f3, f6, k1, k2, k8]
      exact ih.dAv j j1 (by omega) k hk

/-- the state before the columns are written -/
def preCols (s : Sys K) (i : ℕ) (d : Data K) : Data K :=
  let d := { d with oa_gf := upd d.oa_gf i (d.oa_gf i + d.oa_gf (s.par i)) }
  let d := { d with
    ddq := putSeg d.ddq (s.iv i) (s.jnv i) (fun k =>
      (∑ l ∈ range (s.jnv i), (d.joints i).Dinv k l * d.u (s.iv i + l)) - (d.oa_gf i).dot ((d.joints i).UDinv k)) }
  let d := { d with
    oa_gf := upd d.oa_gf i (d.oa_gf i + comb (seg d.J (s.iv i)) (s.jnv i) (seg d.ddq (s.iv i))) }
  let d := { d with oa := upd d.oa i (d.oa_gf i + s.grav) }
  let d := { d with of := upd d.of i ((d.oYcrb i).mul (d.oa_gf i) + (d.ov i).crossF (d.oh i)) }
  minvFwd2 s i d

theorem abaDerFwd2_pre (i : ℕ) (d : Data K) :
    abaDerFwd2 s i d = abaDerCols s i ((preCols s i d).oYcrb i) (preCols s i d) := rfl

/-- second forward step, with the external force of joint `i` taken off -/
theorem D3.fwd2 (h : s.Packed) {fext : ℕ → Force K} {i : ℕ} (h1 : 1 ≤ i) (hi : i < s.n) {d : Data K}
    (ih : D3 s fext i d) : D3 s fext (i + 1) { abaDerFwd2 s i d with
      of := upd (abaDerFwd2 s i d).of i ((abaDerFwd2 s i d).of i - ((abaDerFwd2 s i d).oMi i).actF (fext i)) } := by
  have hofe : (abaDerFwd2 s i d).of = (preCols s i d).of := by rw [abaDerFwd2_pre, abaDerCols_eq]
  have hoMe : (abaDerFwd2 s i d).oMi = (preCols s i d).oMi := by rw [abaDerFwd2_pre, abaDerCols_eq]
  refine D3.step h h1 hi (Y := (preCols s i d).oYcrb i) (d1 := preCols s i d) ih ?_ rfl ?_ rfl ?_ ?_
  · unfold preCols; dsimp only; rw [minvFwd2_eq]; simp
  · intro j hj
    unfold preCols; dsimp only; rw [minvFwd2_eq]
    simp only [upd_ne _ _ hj, and_self]
  · intro j hj
    dsimp only
    rw [upd_ne _ _ hj, hofe]
    unfold preCols; dsimp only; rw [minvFwd2_eq]
    simp only [upd_ne _ _ hj]
  · dsimp only
    rw [upd_self, hofe, hoMe]
    congr 1
    unfold preCols; dsimp only; rw [minvFwd2_eq]
    simp only [upd_self]

theorem D3.fwd2Opt (h : s.Packed) {fext : ℕ → Force K} {i : ℕ} (h1 : 1 ≤ i) (hi : i < s.n) {d : Data K}
    (ih : D3 s fext i d) : D3 s fext (i + 1) { abaDerFwd2Opt s i d with
      of := upd (abaDerFwd2Opt s i d).of i ((abaDerFwd2Opt s i d).of i
        - ((abaDerFwd2Opt s i d).oMi i).actF (fext i)) } := by
  set d1 := minvFwd2 s i { d with
    oYcrb := upd d.oYcrb i (d.oinertias i)
    of := upd d.of i ((d.oinertias i).mul (d.oa_gf i) + (d.ov i).crossF (d.oh i)) } with hd1
  have hpre : abaDerFwd2Opt s i d = abaDerCols s i (d1.oinertias i) d1 := rfl
  have e1 : d1 = { d with
    oYcrb := upd d.oYcrb i (d.oinertias i)
    of := upd d.of i ((d.oinertias i).mul (d.oa_gf i) + (d.ov i).crossF (d.oh i))
    Minv := d1.Minv, Fcrb := d1.Fcrb } := by rw [hd1, minvFwd2_eq]
  have hofe : (abaDerFwd2Opt s i d).of = d1.of := by rw [hpre, abaDerCols_eq]
  have hoMe : (abaDerFwd2Opt s i d).oMi = d1.oMi := by rw [hpre, abaDerCols_eq]
  refine D3.step h h1 hi (Y := d1.oinertias i) (d1 := d1) ih ?_ ?_ ?_ rfl ?_ ?_
  · rw [e1]; simp
  · rw [e1]; simp
  · intro j hj; rw [e1]; simp only [upd_ne _ _ hj, and_self]
  · intro j hj
    dsimp only
    rw [upd_ne _ _ hj, hofe, e1]
    simp only [upd_ne _ _ hj]
  · dsimp only
    rw [upd_self, hofe, hoMe, e1]
    simp only [upd_self]

/-! ## quantities of the bodies -/

/-- placements, columns, velocities, inertias and momenta, in the world frame -/
structure AwB (s : Sys K) (q v : ℕ → K) (d : Data K) : Prop where
  oM : ∀ i, 1 ≤ i → i < s.n → d.oMi i = s.oM q i
  J : JOk s q s.n d.J
  vel : ∀ i, 1 ≤ i → i < s.n → d.ov i = s.oV q v i
  I : ∀ i, 1 ≤ i → i < s.n → d.oinertias i = (s.Y i).act (s.oM q i)
  Y : ∀ i, 1 ≤ i → i < s.n → d.oYcrb i = (s.Y i).act (s.oM q i)
  oh : ∀ i, 1 ≤ i → i < s.n → d.oh i = (s.oI q i).mulMF (s.oV q v i)

theorem AwB.congr {q v : ℕ → K} {d e : Data K} (h : AwB s q v d) (h1 : e.oMi = d.oMi) (h2 : e.J = d.J) (h3 : e.ov = d.ov)
    (h4 : e.oinertias = d.oinertias) (h5 : e.oYcrb = d.oYcrb) (h6 : e.oh = d.oh) : AwB s q v e :=
  ⟨by rw [h1]; exact h.oM, by rw [h2]; exact h.J, by rw [h3]; exact h.vel, by rw [h4]; exact h.I, by rw [h5]; exact h.Y,
    by rw [h6]; exact h.oh⟩

theorem abaWorldFwd1_bodies (q v : ℕ → K) (i : ℕ) (d : Data K) :
    let x := abaWorldFwd1 s q v i d
    x.oinertias = upd d.oinertias i ((s.Y i).act (x.oMi i)) ∧ x.oYcrb = upd d.oYcrb i ((s.Y i).act (x.oMi i)) ∧
    x.oh = upd d.oh i (((s.Y i).act (x.oMi i)).mul (x.ov i)) ∧ (∀ j, j ≠ i → x.oMi j = d.oMi j) ∧
    ∀ j, j ≠ i → x.ov j = d.ov j := by
  unfold abaWorldFwd1
  by_cases hp : s.par i > 0
  · simp only [hp, if_true, upd_self, upd_upd]
    exact ⟨trivial, trivial, trivial, fun j hj => upd_ne _ _ hj, fun j hj => upd_ne _ _ hj⟩
  · simp only [hp, if_false, upd_self, upd_upd]
    exact ⟨trivial, trivial, trivial, fun j hj => upd_ne _ _ hj, fun j hj => upd_ne _ _ hj⟩

/-- after the first pass, whatever is done to `of` after every step -/
theorem awB_fwd1 (h : s.Packed) {q v t : ℕ → K} {p : ℕ → Force K} (g : ℕ → Data K → ℕ → Force K) (d : Data K)
    (hd : AW1 s q v p t s.n (fwd (fun i d => { abaWorldFwd1 s q v i d with of := g i d }) s.n d)) :
    AwB s q v (fwd (fun i d => { abaWorldFwd1 s q v i d with of := g i d }) s.n d) := by
  have key := fwd_ind (step := fun i d => { abaWorldFwd1 s q v i d with of := g i d }) (n := s.n) (d := d)
    (P := fun k (e : Data K) => ∀ i, 1 ≤ i → i < k → e.oinertias i = (s.Y i).act (e.oMi i) ∧
      e.oYcrb i = (s.Y i).act (e.oMi i) ∧ e.oh i = ((s.Y i).act (e.oMi i)).mul (e.ov i)) h.par.1
    (fun i _ _ => by omega) (by
      intro i e h1 hi ih j j1 hj
      obtain ⟨b1, b2, b3, b4, b5⟩ := abaWorldFwd1_bodies (s := s) q v i e
      dsimp only
      by_cases ej : j = i
      · subst ej; rw [b1, b2, b3, upd_self, upd_self, upd_self]; exact ⟨rfl, rfl, rfl⟩
      · rw [b1, b2, b3, upd_ne _ _ ej, upd_ne _ _ ej, upd_ne _ _ ej, b4 j ej, b5 j ej]
        exact ih j j1 (by omega))
  refine ⟨hd.oM, hd.J, hd.vel, fun i h1 hi => ?_, fun i h1 hi => ?_, fun i h1 hi => ?_⟩
  · rw [(key i h1 hi).1, hd.oM i h1 hi]
  · rw [(key i h1 hi).2.1, hd.oM i h1 hi]
  · rw [(key i h1 hi).2.2, hd.oM i h1 hi, hd.vel i h1 hi]; unfold Sys.oI; rw [Inertia.matrix_mulMF]

/-- the state before the last pass -/
structure D3Ok (s : Sys K) (q v a : ℕ → K) (fext : ℕ → Force K) (d : Data K) : Prop where
  J : JOk s q s.n d.J
  Y : ∀ i, 1 ≤ i → i < s.n → d.oYcrb i = (s.Y i).act (s.oM q i)
  of : ∀ i, 1 ≤ i → i < s.n → d.of i = s.oF (-s.grav) q v a fext i
  B : ∀ i, 1 ≤ i → i < s.n → d.doYcrb i = s.dB q v i
  dVq : ∀ i, 1 ≤ i → i < s.n → ∀ k, k < s.jnv i → d.dVdq (s.iv i + k) = s.dVq q v i k
  dAq : ∀ i, 1 ≤ i → i < s.n → ∀ k, k < s.jnv i → d.dAdq (s.iv i + k) = s.dAq q v a i k
  dAv : ∀ i, 1 ≤ i → i < s.n → ∀ k, k < s.jnv i → d.dAdv (s.iv i + k) = s.dAv q v i k

theorem D3.ok (h : s.Packed) {q v a : ℕ → K} (hq : s.At q) {fext : ℕ → Force K} {e : Data K} (hd : D3 s fext s.n e)
    (hb : AwB s q v e) (ha : ∀ i, i < s.n → e.oa_gf i = s.wA (-s.grav) q v a i) : D3Ok s q v a fext e := by
  have ev0 : ∀ i, ¬ s.par i > 0 → ∀ x : Motion K, (s.oV q v (s.par i)).cross x = 0 := by
    intro i hz x
    rw [show s.par i = 0 by omega, Sys.oV_zero, Motion.zero_cross]
  refine ⟨hb.J, hb.Y, ?_, ?_, ?_, ?_, ?_⟩
  · intro i h1 hi
    rw [hd.of i h1 hi, hb.Y i h1 hi, hb.vel i h1 hi, hb.oh i h1 hi, hb.oM i h1 hi, ha i hi,
      Sys.oF_eq h.par hq _ _ _ _ hi]
    unfold Sys.oI
    rw [Inertia.matrix_mulMF, Inertia.matrix_mulMF]
  · intro i h1 hi
    rw [hd.B i h1 hi, hb.Y i h1 hi, hb.vel i h1 hi, hb.oh i h1 hi]
    unfold Sys.dB Sys.oI
    rw [Inertia.matrix_mulMF]
  · intro i h1 hi k hk
    rw [hd.dVq i h1 hi k hk, hb.J i h1 hi k hk]
    unfold Sys.dVq
    split
    · rename_i hz; rw [hb.vel _ hz (by have := h.par.2 i h1 hi; omega)]
    · rename_i hz; rw [ev0 i hz]
  · intro i h1 hi k hk
    have hpi := h.par.2 i h1 hi
    rw [hd.dAq i h1 hi k hk, hb.J i h1 hi k hk, ha _ (by omega)]
    unfold Sys.dAq Sys.dVq
    split
    · rename_i hz; rw [hb.vel _ hz (by omega)]
    · rename_i hz; rw [ev0 i hz]
  · intro i h1 hi k hk
    have hpi := h.par.2 i h1 hi
    rw [hd.dAv i h1 hi k hk, hb.J i h1 hi k hk, hb.vel i h1 hi]
    unfold Sys.dAv Sys.dVq
    split
    · rename_i hz; rw [hb.vel _ hz (by omega)]
    · rename_i hz; rw [ev0 i hz]

/-! ## the three passes that compute the acceleration and the inverse -/

/-- state before the last pass: columns, acceleration and inverse -/
structure Mid (s : Sys K) (q v tau : ℕ → K) (fext : ℕ → Force K) (e : Data K) : Prop where
  ok : D3Ok s q v e.ddq fext e
  inv : MinOk s q e.Minv
  power : ∀ w, s.dotv w tau = (∑ i ∈ Ico 1 s.n, (s.V q w i).dot (s.F (-s.grav) q v e.ddq i - fext i))
    + s.dotv w (fun r => s.arm r * e.ddq r)

theorem abaDerFwd2_fields (i : ℕ) (e : Data K) :
    (abaDerFwd2 s i e).joints = e.joints ∧ (abaDerFwd2 s i e).u = e.u ∧ (abaDerFwd2 s i e).J = e.J ∧
    (abaDerFwd2 s i e).oMi = e.oMi ∧ (abaDerFwd2 s i e).ov = e.ov ∧ (abaDerFwd2 s i e).oinertias = e.oinertias ∧
    (abaDerFwd2 s i e).oYcrb = e.oYcrb ∧ (abaDerFwd2 s i e).oh = e.oh ∧
    (abaDerFwd2 s i e).oa_gf = (abaWorldFwd2 s i e).oa_gf ∧ (abaDerFwd2 s i e).ddq = (abaWorldFwd2 s i e).ddq := by
  rw [abaDerFwd2_pre, abaDerCols_eq]
  unfold preCols abaWorldFwd2
  dsimp only
  rw [minvFwd2_eq]
  simp

theorem abaDerFwd2Opt_fields (i : ℕ) (e : Data K) :
    (abaDerFwd2Opt s i e).joints = e.joints ∧ (abaDerFwd2Opt s i e).J = e.J ∧
    (abaDerFwd2Opt s i e).oMi = e.oMi ∧ (abaDerFwd2Opt s i e).ov = e.ov ∧
    (abaDerFwd2Opt s i e).oinertias = e.oinertias ∧
    (abaDerFwd2Opt s i e).oYcrb = upd e.oYcrb i (e.oinertias i) ∧ (abaDerFwd2Opt s i e).oh = e.oh ∧
    (abaDerFwd2Opt s i e).oa_gf = e.oa_gf ∧ (abaDerFwd2Opt s i e).ddq = e.ddq := by
  unfold abaDerFwd2Opt
  dsimp only
  rw [abaDerCols_eq, minvFwd2_eq]
  simp

/-- `g` is what is written to `of` after every step of the second forward pass -/
theorem mid_ok (h : s.Packed) (hc : Compact s.par s.n) {q : ℕ → K} (hq : s.At q) (hR : s.Regular q) {v tau : ℕ → K}
    {fext : ℕ → Force K} {d1 : Data K} (hd : AW1 s q v (s.obf q v fext) tau s.n d1) (hb : AwB s q v d1)
    {M : ℕ → ℕ → K} (hM : d1.Minv = zeroUpper s.nv M) (hF : d1.Fcrb 0 = fun _ => 0) :
    Mid s q v tau fext (fwd (fun i d =>
      let d := abaDerFwd2 s i d
      { d with of := upd d.of i (d.of i - (d.oMi i).actF (fext i)) }) s.n (bwd (abaDerBwd1 s) s.n d1)) := by
  set step := fun i (d : Data K) =>
      let d := abaDerFwd2 s i d
      { d with of := upd d.of i (d.of i - (d.oMi i).actF (fext i)) } with hstep
  set d2 := bwd (abaDerBwd1 s) s.n d1 with hd2
  set w2 := bwd (abaWorldBwd s) s.n d1 with hw2
  set P := worP s d1.J q v with hP
  have hkA : keepA d1 d2 = w2 := (bwd_proj (step := abaDerBwd1 s) (step' := abaWorldBwd s) (n := s.n) (d := d1)
    (keepA d1) (fun _ => True) trivial (fun i e _ _ _ => ⟨trivial, keepA_bwd1 d1 i e⟩)).2
  have kw : w2.J = d1.J ∧ w2.oMi = d1.oMi ∧ w2.ov = d1.ov ∧ w2.oinertias = d1.oinertias ∧ w2.oYcrb = d1.oYcrb ∧
      w2.oh = d1.oh :=
    bwd_ind (step := abaWorldBwd s) (n := s.n) (d := d1) (P := fun _ (e : Data K) => e.J = d1.J ∧ e.oMi = d1.oMi ∧
      e.ov = d1.ov ∧ e.oinertias = d1.oinertias ∧ e.oYcrb = d1.oYcrb ∧ e.oh = d1.oh) h.par.1
      ⟨rfl, rfl, rfl, rfl, rfl, rfl⟩ (by
        rintro i e _ _ ih
        unfold abaWorldBwd
        by_cases hz : s.par i > 0
        · simp only [hz, if_true]; exact ih
        · simp only [hz, if_false]; exact ih)
  have k2 : d2.J = d1.J ∧ d2.oMi = d1.oMi ∧ d2.ov = d1.ov ∧ d2.oinertias = d1.oinertias ∧ d2.oYcrb = d1.oYcrb ∧
      d2.oh = d1.oh ∧ d2.joints = w2.joints ∧ d2.u = w2.u ∧ d2.oa_gf = w2.oa_gf ∧ d2.ddq = w2.ddq := by
    rw [← hkA] at kw ⊢; exact ⟨kw.1, kw.2.1, kw.2.2.1, kw.2.2.2.1, kw.2.2.2.2.1, kw.2.2.2.2.2, rfl, rfl, rfl, rfl⟩
  obtain ⟨c1, c2, c3, c4, c5, c6, c7, c8, c9, c10⟩ := k2
  -- second forward pass: bodies
  set e := fwd step s.n d2 with he
  have hfix : e.J = d1.J ∧ e.oMi = d1.oMi ∧ e.ov = d1.ov ∧ e.oinertias = d1.oinertias ∧ e.oYcrb = d1.oYcrb ∧
      e.oh = d1.oh :=
    fwd_ind (step := step) (n := s.n) (d := d2) (P := fun _ (e : Data K) => e.J = d1.J ∧ e.oMi = d1.oMi ∧
      e.ov = d1.ov ∧ e.oinertias = d1.oinertias ∧ e.oYcrb = d1.oYcrb ∧ e.oh = d1.oh) h.par.1
      ⟨c1, c2, c3, c4, c5, c6⟩ (by
        rintro i e _ _ ⟨a1, a2, a3, a4, a5, a6⟩
        obtain ⟨b1, b2, b3, b4, b5, b6, b7, b8, -, -⟩ := abaDerFwd2_fields (s := s) i e
        exact ⟨b3.trans a1, b4.trans a2, b5.trans a3, b6.trans a4, b7.trans a5, b8.trans a6⟩)
  -- second forward pass: accelerations, as in `aba`
  have hpair : (e.oa_gf, e.ddq) = ((abaWorldRest s d1).oa_gf, (abaWorldRest s d1).ddq) := by
    have p1 := (fwd_proj (step := step) (step' := absFwd s P (worπ w2)) (n := s.n) (d := d2)
      (fun e => (e.oa_gf, e.ddq)) (fun e => e.joints = w2.joints ∧ e.u = w2.u ∧ e.J = d1.J) ⟨c7, c8, c1⟩ (by
        rintro i e h1 hi ⟨a, b, c⟩
        obtain ⟨b1, b2, b3, -, -, -, -, -, b9, b10⟩ := abaDerFwd2_fields (s := s) i e
        refine ⟨⟨b1.trans a, b2.trans b, b3.trans c⟩, ?_⟩
        simp only [hstep]
        rw [b9, b10]
        simp only [abaWorldFwd2, absFwd, worπ, hP, worP, a, b, c, upd_self, Function.update_idem, id])).2
    have p2 := (fwd_proj (step := abaWorldFwd2 s) (step' := absFwd s P (worπ w2)) (n := s.n) (d := w2)
      (fun e => (e.oa_gf, e.ddq)) (fun e => e.joints = w2.joints ∧ e.u = w2.u ∧ e.J = d1.J) ⟨rfl, rfl, kw.1⟩ (by
        rintro i e h1 hi ⟨a, b, c⟩
        refine ⟨⟨a, b, c⟩, ?_⟩
        simp only [abaWorldFwd2, absFwd, worπ, hP, worP, a, b, c, upd_self, Function.update_idem, id])).2
    refine p1.trans (Eq.trans ?_ p2.symm)
    rw [c9, c10]
  have hddq : e.ddq = (abaWorldRest s d1).ddq := congrArg Prod.snd hpair
  have hoa : e.oa_gf = (abaWorldRest s d1).oa_gf := congrArg Prod.fst hpair
  -- columns
  have h3 : D3 s fext s.n e := fwd_ind (step := step) (n := s.n) (d := d2) (P := fun k (e : Data K) => D3 s fext k e)
    h.par.1 (D3.zero _ _) (fun i e h1 hi ih => D3.fwd2 h h1 hi ih)
  -- inverse
  have hmin : keepM d1 e = fwd (minvFwd2 s) s.n (bwd (minvBwd s) s.n d1) := by
    have m1 := (bwd_proj (step := abaDerBwd1 s) (step' := minvBwd s) (n := s.n) (d := d1)
      (keepM d1) (fun _ => True) trivial (fun i e _ _ _ => ⟨trivial, keepM_bwd1 d1 i e⟩)).2
    have m2 := (fwd_proj (step := step) (step' := minvFwd2 s) (n := s.n) (d := d2)
      (keepM d1) (fun _ => True) trivial (fun i e _ _ _ => ⟨trivial, keepM_fwd2' d1 i e⟩)).2
    rw [← hd2] at m1
    refine m2.trans ?_
    rw [m1]; rfl
  have hMin : MinOk s q e.Minv := by
    have := minvPasses_ok h hc hq hR hd.J hd.Y hM hF
    rwa [← hmin] at this
  refine ⟨?_, hMin, ?_⟩
  · refine h3.ok h hq (hb.congr hfix.2.1 hfix.1 hfix.2.2.1 hfix.2.2.2.1 hfix.2.2.2.2.1 hfix.2.2.2.2.2) ?_
    rw [hoa, hddq]
    exact ((abaWorldRest_ok h hq hd).2 ((world_blocks h hq hd).2.1 hR)).1
  · rw [hddq]; exact abaWorld_power h hq hd hR

/-- no external force -/
theorem of_sub_zero (x : Data K) (i : ℕ) : { x with of := upd x.of i (x.of i - (x.oMi i).actF 0) } = x := by
  have : upd x.of i (x.of i - (x.oMi i).actF 0) = x.of := by
    rw [SE3.actF_zero, sub_zero]
    funext j; by_cases e : j = i
    · subst e; rw [upd_self]
    · rw [upd_ne _ _ e]
  rw [this]

/-- overload without `q`, on the data of `aba` in the world convention -/
theorem midOpt_ok (h : s.Packed) (hc : Compact s.par s.n) {q : ℕ → K} (hq : s.At q) (hR : s.Regular q) {v tau : ℕ → K}
    {fext : ℕ → Force K} {d1 d0 : Data K} (hd : AW1 s q v (s.obf q v fext) tau s.n d1) (hb : AwB s q v d0)
    (hj : d0.joints = (abaWorldRest s d1).joints) (hJ : d0.J = d1.J) (hoa : d0.oa_gf = (abaWorldRest s d1).oa_gf)
    (hddq : d0.ddq = (abaWorldRest s d1).ddq) (M : ℕ → ℕ → K) :
    Mid s q v tau fext (fwd (fun i d =>
      let d := abaDerFwd2Opt s i d
      { d with of := upd d.of i (d.of i - (d.oMi i).actF (fext i)) }) s.n (bwd (minvRows s) s.n
        { d0 with Minv := zeroUpper s.nv M, Fcrb := upd d0.Fcrb 0 (fun _ => 0) })) ∧
    (fwd (fun i d =>
      let d := abaDerFwd2Opt s i d
      { d with of := upd d.of i (d.of i - (d.oMi i).actF (fext i)) }) s.n (bwd (minvRows s) s.n
        { d0 with Minv := zeroUpper s.nv M, Fcrb := upd d0.Fcrb 0 (fun _ => 0) })).ddq = d0.ddq := by
  set step := fun i (d : Data K) =>
      let d := abaDerFwd2Opt s i d
      { d with of := upd d.of i (d.of i - (d.oMi i).actF (fext i)) } with hstep
  set d0' : Data K := { d0 with Minv := zeroUpper s.nv M, Fcrb := upd d0.Fcrb 0 (fun _ => 0) } with hd0'
  set d2 := bwd (minvRows s) s.n d0' with hd2
  have k2 : d2.J = d0.J ∧ d2.oMi = d0.oMi ∧ d2.ov = d0.ov ∧ d2.oinertias = d0.oinertias ∧ d2.oYcrb = d0.oYcrb ∧
      d2.oh = d0.oh ∧ d2.oa_gf = d0.oa_gf ∧ d2.ddq = d0.ddq :=
    bwd_ind (step := minvRows s) (n := s.n) (d := d0') (P := fun _ (e : Data K) => e.J = d0.J ∧ e.oMi = d0.oMi ∧
      e.ov = d0.ov ∧ e.oinertias = d0.oinertias ∧ e.oYcrb = d0.oYcrb ∧ e.oh = d0.oh ∧ e.oa_gf = d0.oa_gf ∧
      e.ddq = d0.ddq) h.par.1 ⟨rfl, rfl, rfl, rfl, rfl, rfl, rfl, rfl⟩ (by
        rintro i e _ _ ih
        rw [minvRows_eq]; exact ih)
  obtain ⟨c1, c2, c3, c4, c5, c6, c7, c8⟩ := k2
  set e := fwd step s.n d2 with he
  have hfix : e.J = d0.J ∧ e.oMi = d0.oMi ∧ e.ov = d0.ov ∧ e.oinertias = d0.oinertias ∧ e.oh = d0.oh ∧
      e.oa_gf = d0.oa_gf ∧ e.ddq = d0.ddq ∧ ∀ i, 1 ≤ i → i < s.n → e.oYcrb i = (s.Y i).act (s.oM q i) :=
    fwd_ind (step := step) (n := s.n) (d := d2) (P := fun _ (e : Data K) => e.J = d0.J ∧ e.oMi = d0.oMi ∧
      e.ov = d0.ov ∧ e.oinertias = d0.oinertias ∧ e.oh = d0.oh ∧ e.oa_gf = d0.oa_gf ∧ e.ddq = d0.ddq ∧
      ∀ i, 1 ≤ i → i < s.n → e.oYcrb i = (s.Y i).act (s.oM q i)) h.par.1
      ⟨c1, c2, c3, c4, c6, c7, c8, by rw [c5]; exact hb.Y⟩ (by
        rintro i e h1 hi ⟨a1, a2, a3, a4, a5, a6, a7, a8⟩
        obtain ⟨-, b3, b4, b5, b6, b7, b8, b9, b10⟩ := abaDerFwd2Opt_fields (s := s) i e
        refine ⟨b3.trans a1, b4.trans a2, b5.trans a3, b6.trans a4, b8.trans a5, b9.trans a6, b10.trans a7, ?_⟩
        intro j j1 hj
        refine (congrFun b7 j).trans ?_
        by_cases ej : j = i
        · subst ej; rw [upd_self, a4]; exact hb.I j j1 hj
        · rw [upd_ne _ _ ej]; exact a8 j j1 hj)
  obtain ⟨f1, f2, f3, f4, f5, f6, f7, f8⟩ := hfix
  have h3 : D3 s fext s.n e := fwd_ind (step := step) (n := s.n) (d := d2) (P := fun k (e : Data K) => D3 s fext k e)
    h.par.1 (D3.zero _ _) (fun i e h1 hi ih => D3.fwd2Opt h h1 hi ih)
  have hmin : keepM d0' e = fwd (minvFwd2 s) s.n (bwd (minvRows s) s.n d0') := by
    have m1 := (bwd_proj (step := minvRows s) (step' := minvRows s) (n := s.n) (d := d0')
      (keepM d0') (fun _ => True) trivial (fun i e _ _ _ => ⟨trivial, keepM_rows d0' i e⟩)).2
    have m2 := (fwd_proj (step := step) (step' := minvFwd2 s) (n := s.n) (d := d2)
      (keepM d0') (fun _ => True) trivial (fun i e _ _ _ => ⟨trivial, keepM_fwd2Opt d0' i e⟩)).2
    rw [← hd2] at m1
    refine m2.trans ?_
    rw [m1]; rfl
  have hMin : MinOk s q e.Minv := by
    have := minv_after_world h hc hq hR hd (e := { d0 with Minv := M }) hj hJ
    have e2 : (computeMinverseNoUpdate s { d0 with Minv := M }).Minv = e.Minv := by
      rw [show e.Minv = (keepM d0' e).Minv from rfl, hmin]; rfl
    rwa [e2] at this
  refine ⟨⟨?_, hMin, ?_⟩, f7⟩
  · refine h3.ok h hq ⟨by rw [f2]; exact hb.oM, by rw [f1]; exact hb.J, by rw [f3]; exact hb.vel,
      by rw [f4]; exact hb.I, f8, by rw [f5]; exact hb.oh⟩ ?_
    rw [f6, f7, hoa, hddq]
    exact ((abaWorldRest_ok h hq hd).2 ((world_blocks h hq hd).2.1 hR)).1
  · rw [f7, hddq]; exact abaWorld_power h hq hd hR

/-! ## the last pass -/

variable [LinearOrder K] [IsStrictOrderedRing K] [HasEps K]

/-- columns and sums on the subtrees, joints from `k` on -/
structure D4 (s : Sys K) (q v a : ℕ → K) (fext : ℕ → Force K) (k : ℕ) (d : Data K) : Prop where
  J : JOk s q s.n d.J
  dVq : ∀ i, 1 ≤ i → i < s.n → ∀ k, k < s.jnv i → d.dVdq (s.iv i + k) = s.dVq q v i k
  dAq : ∀ i, 1 ≤ i → i < k → i < s.n → ∀ k, k < s.jnv i → d.dAdq (s.iv i + k) = s.dAq q v a i k
  dAv : ∀ i, 1 ≤ i → i < s.n → ∀ k, k < s.jnv i → d.dAdv (s.iv i + k) = s.dAv q v i k
  mass : ∀ i, 1 ≤ i → i < s.n → Inertia.MassOk (d.oYcrb i).mass
  acc : PAcc s.par s.n (fun _ x => x) (s.oI q) k (fun i => (d.oYcrb i).matrix)
  accB : PAcc s.par s.n (fun _ x => x) (s.dB q v) k d.doYcrb
  accF : PAcc s.par s.n (fun _ x => x) (s.oF (-s.grav) q v a fext) k d.of
  Fq : ∀ j, 1 ≤ j → k ≤ j → j < s.n → ∀ l, l < s.jnv j → d.dFdq (s.iv j + l)
      = (s.oYm q j).mulMF (s.dAq q v a j l) + (s.dBm q v j).mulMF (s.dVq q v j l)
        + (s.Jc q j l).crossF (s.oFm q v a fext j)
  Fv : ∀ j, 1 ≤ j → k ≤ j → j < s.n → ∀ l, l < s.jnv j → d.dFdv (s.iv j + l)
      = (s.oYm q j).mulMF (s.dAv q v j l) + (s.dBm q v j).mulMF (s.Jc q j l)
  -- what is left of the columns `dAdq`
  res : ∀ i, 1 ≤ i → k ≤ i → i < s.n → ∀ k, k < s.jnv i → d.dAdq (s.iv i + k)
      = ⟨(s.dAq q v a i k).lin + s.grav.lin.cross (s.Jc q i k).ang, (s.dAq q v a i k).ang⟩

theorem abaDerBwd2_same (i : ℕ) (d : Data K) :
    (abaDerBwd2 s i d).J = d.J ∧ (abaDerBwd2 s i d).dVdq = d.dVdq ∧ (abaDerBwd2 s i d).dAdv = d.dAdv ∧
    (abaDerBwd2 s i d).Minv = d.Minv ∧ (abaDerBwd2 s i d).ddq = d.ddq ∧
    (abaDerBwd2 s i d).dAdq = putSeg d.dAdq (s.iv i) (s.jnv i)
    (fun k => ⟨(d.dAdq (s.iv i + k)).lin + s.grav.lin.cross (d.J (s.iv i + k)).ang, (d.dAdq (s.iv i + k)).ang⟩) := by
  unfold abaDerBwd2
  by_cases hz : s.par i > 0
  · simp only [hz, if_true, and_self]
  · simp only [hz, if_false, and_self]

theorem abaDerBwd2_acc (i : ℕ) (d : Data K) :
    (abaDerBwd2 s i d).oYcrb = (if s.par i > 0 then
        upd d.oYcrb (s.par i) (Inertia.addAssign (d.oYcrb (s.par i)) (d.oYcrb i)) else d.oYcrb) ∧
    (abaDerBwd2 s i d).doYcrb = (if s.par i > 0 then
        upd d.doYcrb (s.par i) (d.doYcrb (s.par i) + d.doYcrb i) else d.doYcrb) ∧
    (abaDerBwd2 s i d).of = (if s.par i > 0 then
        upd d.of (s.par i) (d.of (s.par i) + d.of i) else d.of) := by
  unfold abaDerBwd2
  by_cases hz : s.par i > 0
  · simp only [hz, if_true, and_self]
  · simp only [hz, if_false, and_self]

theorem abaDerBwd2_cols (i : ℕ) (d : Data K) {k : ℕ} (hk : k < s.jnv i) :
    let e := abaDerBwd2 s i d
    let c := s.iv i + k
    e.dFda c = (d.oYcrb i).mul (d.J c) ∧
    e.dFdq c = (d.oYcrb i).mul (d.dAdq c) + (if s.par i > 0 then (d.doYcrb i).mulMF (d.dVdq c) else 0)
      + (d.J c).crossF (d.of i) ∧
    e.dFdv c = (d.oYcrb i).mul (d.dAdv c) + (d.doYcrb i).mulMF (d.J c) := by
  unfold abaDerBwd2
  by_cases hz : s.par i > 0
  · simp only [hz, if_true, putSeg_at _ _ hk, and_self]
  · simp only [hz, if_false, putSeg_at _ _ hk, add_zero, and_self]

theorem abaDerBwd2_out (i : ℕ) (d : Data K) {c : ℕ} (hc : ¬ (s.iv i ≤ c ∧ c < s.iv i + s.jnv i)) :
    let e := abaDerBwd2 s i d
    e.dFda c = d.dFda c ∧ e.dFdq c = d.dFdq c ∧ e.dFdv c = d.dFdv c ∧ e.dAdq c = d.dAdq c := by
  unfold abaDerBwd2
  by_cases hz : s.par i > 0
  · simp only [hz, if_true, putSeg_out _ _ hc, and_self]
  · simp only [hz, if_false, putSeg_out _ _ hc, and_self]

theorem RowC.congr {E : ℕ → ℕ → ℕ → ℕ → K} {C0 C C' : ℕ → ℕ → K} {k : ℕ} (hC : RowC s E C0 k C)
    (he : ∀ r, ∀ j, 1 ≤ j → j < s.n → ∀ l, l < s.jnv j → C' r (s.iv j + l) = C r (s.iv j + l)) : RowC s E C0 k C' :=
  ⟨fun i h1 ik hi k' hk j j1 hj ha l hl => (he _ j j1 hj l hl).trans (hC.row i h1 ik hi k' hk j j1 hj ha l hl),
   fun i h1 hi k' hk j j1 hj n1 n2 l hl => (he _ j j1 hj l hl).trans (hC.other i h1 hi k' hk j j1 hj n1 n2 l hl)⟩

/-- the rows of joint `i`, written in two loops and only below the root -/
theorem RowC.step2 (h : s.Packed) (hf : s.Full) (hc : Compact s.par s.n) {E : ℕ → ℕ → ℕ → ℕ → K} {C0 C C' : ℕ → ℕ → K}
    {i : ℕ} (h1 : 1 ≤ i) (hi : i < s.n) (ih : RowC s E C0 (i + 1) C) {R : ℕ → ℕ → K} (U V : ℕ → ℕ → K)
    (hR : ∀ j, j < s.n → anc s.par i j → ∀ l, l < s.jnv j → ∀ k, k < s.jnv i →
      R k (s.iv j + l - s.iv i) = E i k j l)
    (hU : ∀ j, 1 ≤ j → j < s.n → anc s.par j (s.par i) → ∀ l, l < s.jnv j → ∀ k, k < s.jnv i →
      U (s.iv i + k) (s.iv j + l) + V (s.iv i + k) (s.iv j + l) = E i k j l)
    (hC' : C' = if s.par i > 0 then
        rowLoop (parentsFromRow s) (fun j G => putBlock G (s.iv i) j (s.jnv i) 1
          (fun r _ => G (s.iv i + r) j + V (s.iv i + r) j)) (s.nv + 1) (parentsFromRow s (s.iv i))
        (rowLoop (parentsFromRow s) (fun j G => putBlock G (s.iv i) j (s.jnv i) 1
          (fun r _ => U (s.iv i + r) j)) (s.nv + 1) (parentsFromRow s (s.iv i))
          (putBlock C (s.iv i) (s.iv i) (s.jnv i) (s.nvSub i) R))
      else putBlock C (s.iv i) (s.iv i) (s.jnv i) (s.nvSub i) R) :
    RowC s E C0 i C' := by
  classical
  refine (RowC.step h hf hc h1 hi ih (fun r c => U r c + V r c) hR hU).congr ?_
  intro r j j1 hj l hl
  rw [colLoop_at h hf h1 hi j1 hj hl (fun j _ r => U r j + V r j), hC']
  split
  · rw [colLoop_at h hf h1 hi j1 hj hl (fun j X r => X r + V r j)]
    beta_reduce
    rw [colLoop_at h hf h1 hi j1 hj hl (fun j _ r => U r j)]
    split_ifs <;> rfl
  · rename_i hz
    rw [if_neg]
    intro ha
    have := anc_le h.par (s.par i) (by have := h.par.2 i h1 hi; omega) ha
    omega

theorem abaDerBwd2_mats (i : ℕ) (d : Data K) :
    ∃ Fq : ℕ → Force K,
    (∀ k, k < s.jnv i → Fq (s.iv i + k) = (d.oYcrb i).mul (d.dAdq (s.iv i + k))
      + (if s.par i > 0 then (d.doYcrb i).mulMF (d.dVdq (s.iv i + k)) else 0)) ∧
    (∀ c, ¬ (s.iv i ≤ c ∧ c < s.iv i + s.jnv i) → Fq c = d.dFdq c) ∧
    (abaDerBwd2 s i d).dtau_dq = (if s.par i > 0 then
        rowLoop (parentsFromRow s) (fun j G => putBlock G (s.iv i) j (s.jnv i) 1
          (fun r _ => G (s.iv i + r) j + (d.J (s.iv i + r)).dot ((d.doYcrb i).mulMF (d.dVdq j)))) (s.nv + 1)
          (parentsFromRow s (s.iv i))
        (rowLoop (parentsFromRow s) (fun j G => putBlock G (s.iv i) j (s.jnv i) 1
          (fun r _ => (d.dAdq j).dot ((abaDerBwd2 s i d).dFda (s.iv i + r)))) (s.nv + 1) (parentsFromRow s (s.iv i))
          (putBlock d.dtau_dq (s.iv i) (s.iv i) (s.jnv i) (s.nvSub i)
            (fun r c => (d.J (s.iv i + r)).dot (Fq (s.iv i + c)))))
      else putBlock d.dtau_dq (s.iv i) (s.iv i) (s.jnv i) (s.nvSub i)
            (fun r c => (d.J (s.iv i + r)).dot (Fq (s.iv i + c)))) ∧
    (abaDerBwd2 s i d).dtau_dv = (if s.par i > 0 then
        rowLoop (parentsFromRow s) (fun j G => putBlock G (s.iv i) j (s.jnv i) 1
          (fun r _ => G (s.iv i + r) j + (d.J (s.iv i + r)).dot ((d.doYcrb i).mulMF (d.J j)))) (s.nv + 1)
          (parentsFromRow s (s.iv i))
        (rowLoop (parentsFromRow s) (fun j G => putBlock G (s.iv i) j (s.jnv i) 1
          (fun r _ => (d.dAdv j).dot ((abaDerBwd2 s i d).dFda (s.iv i + r)))) (s.nv + 1) (parentsFromRow s (s.iv i))
          (putBlock d.dtau_dv (s.iv i) (s.iv i) (s.jnv i) (s.nvSub i)
            (fun r c => (d.J (s.iv i + r)).dot ((abaDerBwd2 s i d).dFdv (s.iv i + c)))))
      else putBlock d.dtau_dv (s.iv i) (s.iv i) (s.jnv i) (s.nvSub i)
            (fun r c => (d.J (s.iv i + r)).dot ((abaDerBwd2 s i d).dFdv (s.iv i + c)))) := by
  by_cases hz : s.par i > 0
  · refine ⟨putSeg (putSeg d.dFdq (s.iv i) (s.jnv i) (fun k => (d.oYcrb i).mul (d.dAdq (s.iv i + k)))) (s.iv i)
      (s.jnv i) (fun k => putSeg d.dFdq (s.iv i) (s.jnv i) (fun k => (d.oYcrb i).mul (d.dAdq (s.iv i + k)))
        (s.iv i + k) + (d.doYcrb i).mulMF (d.dVdq (s.iv i + k))), ?_, ?_, ?_⟩
    · intro k hk; simp only [hz, if_true, putSeg_at _ _ hk]
    · intro c hc; simp only [putSeg_out _ _ hc]
    · unfold abaDerBwd2; simp only [hz, if_true, and_self]
  · refine ⟨putSeg d.dFdq (s.iv i) (s.jnv i) (fun k => (d.oYcrb i).mul (d.dAdq (s.iv i + k))), ?_, ?_, ?_⟩
    · intro k hk; simp only [hz, if_false, putSeg_at _ _ hk, add_zero]
    · intro c hc; simp only [putSeg_out _ _ hc]
    · unfold abaDerBwd2; simp only [hz, if_false, and_self]

theorem abaDerBwd2_step (h : s.Packed) (hf : s.Full) (hc : Compact s.par s.n) {q v a : ℕ → K} {fext : ℕ → Force K}
    {i : ℕ} (h1 : 1 ≤ i) (hi : i < s.n) {d : Data K} {Q0 V0 : ℕ → ℕ → K} (ih : D4 s q v a fext (i + 1) d)
    (iq : RowC s (s.eQ q v a fext) Q0 (i + 1) d.dtau_dq) (iv : RowC s (s.eD q v) V0 (i + 1) d.dtau_dv) :
    D4 s q v a fext i (abaDerBwd2 s i d) ∧ RowC s (s.eQ q v a fext) Q0 i (abaDerBwd2 s i d).dtau_dq ∧
      RowC s (s.eD q v) V0 i (abaDerBwd2 s i d).dtau_dv := by
  have hp := h.par
  have hpi := hp.2 i h1 hi
  have hYi : (d.oYcrb i).matrix = s.oYm q i := ih.acc.eq_acc hp (Sys.oYm_acc hp q) i h1 hi le_rfl
  have hBi : d.doYcrb i = s.dBm q v i := ih.accB.eq_acc hp (Sys.dBm_acc hp q v) i h1 hi le_rfl
  have hFi : d.of i = s.oFm q v a fext i := ih.accF.eq_acc hp (Sys.oFm_acc hp q v a fext) i h1 hi le_rfl
  have hmul : ∀ m, (d.oYcrb i).mul m = (s.oYm q i).mulMF m := by
    intro m; rw [← Inertia.matrix_mulMF, hYi]
  have ne : ∀ j, 1 ≤ j → j < s.n → j ≠ i → ∀ k, k < s.jnv j → ¬ (s.iv i ≤ s.iv j + k ∧ s.iv j + k < s.iv i + s.jnv i) := by
    rintro j j1 hj e k hk ⟨x, y⟩
    exact e (h.inj j1 hj h1 hi hk (l := s.iv j + k - s.iv i) (by omega) (by omega)).1
  obtain ⟨s1, s2, s4, -, -, s3⟩ := abaDerBwd2_same (s := s) i d
  obtain ⟨a1, a2, a3⟩ := abaDerBwd2_acc (s := s) i d
  have hif : ∀ k, k < s.jnv i → (d.oYcrb i).mul (d.dAdq (s.iv i + k))
      + (if s.par i > 0 then (d.doYcrb i).mulMF (d.dVdq (s.iv i + k)) else 0)
      = (s.oYm q i).mulMF (s.dAq q v a i k) + (s.dBm q v i).mulMF (s.dVq q v i k) := by
    intro k hk
    rw [ih.dVq i h1 hi k hk, ih.dAq i h1 (by omega) hi k hk, hmul, hBi]
    split
    · rfl
    · rename_i hz
      have : s.dVq q v i k = 0 := by
        unfold Sys.dVq; rw [show s.par i = 0 by omega, Sys.oV_zero, Motion.zero_cross]
      rw [this, M6.mulMF_zero]
  have cFv : ∀ j, 1 ≤ j → i ≤ j → j < s.n → ∀ l, l < s.jnv j →
      (abaDerBwd2 s i d).dFdv (s.iv j + l)
        = (s.oYm q j).mulMF (s.dAv q v j l) + (s.dBm q v j).mulMF (s.Jc q j l) := by
    intro j j1 hij hj l hl
    by_cases e : j = i
    · subst e; rw [(abaDerBwd2_cols j d hl).2.2, ih.J j j1 hj l hl, ih.dAv j j1 hj l hl, hBi, hmul]
    · rw [(abaDerBwd2_out i d (ne j j1 hj e l hl)).2.2.1]; exact ih.Fv j j1 (by omega) hj l hl
  obtain ⟨Fq, f1, f2, m2, m3⟩ := abaDerBwd2_mats (s := s) i d
  have j1' : ∀ j, j < s.n → anc s.par i j → 1 ≤ j := fun j hj ha => le_trans h1 (anc_le hp j hj ha)
  have colR : ∀ j, j < s.n → anc s.par i j → ∀ l, l < s.jnv j →
      s.iv i + (s.iv j + l - s.iv i) = s.iv j + l := by
    intro j hj ha l hl
    have := ((h.nvSub_iff hc h1 hi (j1' j hj ha) hj hl).2 ha).1
    omega
  have above : ∀ j, 1 ≤ j → j < s.n → anc s.par j (s.par i) → j < i ∧ ¬ anc s.par i j ∧ anc s.par j i := by
    intro j j1 hj ha
    have hl := anc_le hp (s.par i) (by omega) ha
    refine ⟨by omega, fun x => ?_, (anc_step h1 hpi).2 (Or.inr ha)⟩
    have := anc_le hp j hj x
    omega
  refine ⟨⟨?_, ?_, ?_, ?_, ?_, ?_, ?_, ?_, ?_, cFv, ?_⟩, ?_, ?_⟩
  · rw [s1]; exact ih.J
  · rw [s2]; exact ih.dVq
  · intro j j1 hji hj k hk
    rw [(abaDerBwd2_out i d (ne j j1 hj (by omega) k hk)).2.2.2]; exact ih.dAq j j1 (by omega) hj k hk
  · rw [s4]; exact ih.dAv
  · intro j j1 hj
    rw [a1]
    split
    · rename_i hz
      have hadd := Inertia.addAssign_matrix (ih.mass (s.par i) hz (by omega)) (ih.mass i h1 hi)
      by_cases hjp : j = s.par i
      · subst hjp; rw [upd_self]; exact hadd.2
      · rw [upd_ne _ _ hjp]; exact ih.mass j j1 hj
    · exact ih.mass j j1 hj
  · apply PAcc.step hp h1 hi ih.acc
    intro j j1
    split
    all_goals rw [a1]
    · rename_i e; subst e
      have hz : s.par i > 0 := j1
      have hadd := Inertia.addAssign_matrix (ih.mass (s.par i) hz (by omega)) (ih.mass i h1 hi)
      rw [if_pos hz, upd_self]; exact hadd.1
    · rename_i e
      split
      · rw [upd_ne _ _ e]
      · rfl
  · apply PAcc.step hp h1 hi ih.accB
    intro j j1
    split
    all_goals rw [a2]
    · rename_i e; subst e
      rw [if_pos (show s.par i > 0 from j1), upd_self]
    · rename_i e
      split
      · rw [upd_ne _ _ e]
      · rfl
  · apply PAcc.step hp h1 hi ih.accF
    intro j j1
    split
    all_goals rw [a3]
    · rename_i e; subst e
      rw [if_pos (show s.par i > 0 from j1), upd_self]
    · rename_i e
      split
      · rw [upd_ne _ _ e]
      · rfl
  · intro j j1 hij hj l hl
    by_cases e : j = i
    · subst e; rw [(abaDerBwd2_cols j d hl).2.1, hif l hl, ih.J j j1 hj l hl, hFi]
    · rw [(abaDerBwd2_out i d (ne j j1 hj e l hl)).2.1]; exact ih.Fq j j1 (by omega) hj l hl
  · intro j j1 hij hj l hl
    by_cases e : j = i
    · subst e; rw [s3, putSeg_at _ _ hl, ih.J j j1 hj l hl, ih.dAq j j1 (by omega) hj l hl]
    · rw [(abaDerBwd2_out i d (ne j j1 hj e l hl)).2.2.2]; exact ih.res j j1 (by omega) hj l hl
  · refine RowC.step2 h hf hc h1 hi iq (fun r c => (d.dAdq c).dot ((abaDerBwd2 s i d).dFda r))
      (fun r c => (d.J r).dot ((d.doYcrb i).mulMF (d.dVdq c))) ?_ ?_ m2
    · intro j hj ha l hl k hk
      rw [colR j hj ha l hl, ih.J i h1 hi k hk]
      unfold Sys.eQ
      rw [if_pos ha]
      by_cases e : i = j
      · subst e; rw [if_pos rfl, f1 l hl, hif l hl, add_zero]
      · rw [if_neg e, f2 _ (ne j (j1' j hj ha) hj (Ne.symm e) l hl),
          ih.Fq j (j1' j hj ha) (by have := anc_le hp j hj ha; omega) hj l hl]
    · intro j j1 hj ha l hl k hk
      obtain ⟨hji, hno, hyes⟩ := above j j1 hj ha
      beta_reduce
      rw [(abaDerBwd2_cols i d hk).1, ih.J i h1 hi k hk, hmul, M6.dot_symm' (Sys.oYm_symm q i),
        ih.dAq j j1 (by omega) hj l hl, ih.dVq j j1 hj l hl, hBi, ← Motion.dot_add]
      unfold Sys.eQ
      rw [if_neg hno, if_pos hyes]
  · refine RowC.step2 h hf hc h1 hi iv (fun r c => (d.dAdv c).dot ((abaDerBwd2 s i d).dFda r))
      (fun r c => (d.J r).dot ((d.doYcrb i).mulMF (d.J c))) ?_ ?_ m3
    · intro j hj ha l hl k hk
      rw [colR j hj ha l hl, ih.J i h1 hi k hk]
      unfold Sys.eD
      rw [if_pos ha, cFv j (j1' j hj ha) (anc_le hp j hj ha) hj l hl]
    · intro j j1 hj ha l hl k hk
      obtain ⟨hji, hno, hyes⟩ := above j j1 hj ha
      beta_reduce
      rw [(abaDerBwd2_cols i d hk).1, ih.J i h1 hi k hk, hmul, M6.dot_symm' (Sys.oYm_symm q i),
        ih.dAv j j1 hj l hl, ih.J j j1 hj l hl, hBi, ← Motion.dot_add]
      unfold Sys.eD
      rw [if_neg hno, if_pos hyes]

/-- the last pass -/
theorem abaDerBwd2_ok (h : s.Packed) (hf : s.Full) (hc : Compact s.par s.n) (hm : s.MassesOk) {q v a : ℕ → K}
    {fext : ℕ → Force K} {d : Data K} (hd : D3Ok s q v a fext d) :
    let e := bwd (abaDerBwd2 s) s.n d
    D4 s q v a fext 1 e ∧ RowC s (s.eQ q v a fext) d.dtau_dq 1 e.dtau_dq ∧ RowC s (s.eD q v) d.dtau_dv 1 e.dtau_dv ∧
      e.Minv = d.Minv ∧ e.ddq = d.ddq := by
  have start : ∀ {M : Type u} [AddCommGroup M] (x0 x : ℕ → M), (∀ i, 1 ≤ i → i < s.n → x i = x0 i) →
      PAcc s.par s.n (fun _ x => x) x0 s.n x := by
    intro M _ x0 x hx i h1 hi
    rw [filter_eq_empty_iff.2, sum_empty, add_zero]
    · exact hx i h1 hi
    · intro c hc'; have := (mem_kids.1 hc').1.2; omega
  apply bwd_ind (step := abaDerBwd2 s) (P := fun k (e : Data K) => D4 s q v a fext k e ∧
    RowC s (s.eQ q v a fext) d.dtau_dq k e.dtau_dq ∧ RowC s (s.eD q v) d.dtau_dv k e.dtau_dv ∧
      e.Minv = d.Minv ∧ e.ddq = d.ddq) h.par.1
  · refine ⟨⟨hd.J, hd.dVq, fun i h1 _ => hd.dAq i h1, hd.dAv, ?_, ?_, ?_, ?_, fun i _ _ _ => by omega,
      fun i _ _ _ => by omega, fun i _ _ _ => by omega⟩, RowC.start .., RowC.start .., rfl, rfl⟩
    · intro i h1 hi; rw [hd.Y i h1 hi]; exact hm i h1 hi
    · apply start
      intro i h1 hi; rw [hd.Y i h1 hi]; rfl
    · exact start _ _ hd.B
    · exact start _ _ hd.of
  · intro i x h1 hi ⟨b1, b2, b3, b4, b5⟩
    obtain ⟨c1, c2, c3⟩ := abaDerBwd2_step h hf hc h1 hi b1 b2 b3
    obtain ⟨-, -, -, e1, e2, -⟩ := abaDerBwd2_same (s := s) i x
    exact ⟨c1, c2, c3, e1.trans b4, e2.trans b5⟩

end Pin
