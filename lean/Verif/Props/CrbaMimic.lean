import Verif.Algo.CrbaMimicLocal
import Verif.Props.Centroidal
import Verif.Model.ReduceExamples
import Verif.Model.MimTabLemmas

/-!
# C78: `crba` on models with mimic joints

On a model whose mimic joints meet the restrictions `MimTab.Simple`, `crba` (world convention) reads and writes nothing out of range,
and leaves the mass matrix of the model in which the mimic joints move with the joints they follow, its centroidal map, mass and
centre of mass. Each restriction is needed: see the counterexamples.
-/

set_option linter.unusedSectionVars false

namespace Pin
open Finset

universe u
section main
variable {K : Type u} [Field K] [LinearOrder K] [IsStrictOrderedRing K] [HasEps K] {s : Sys K} {t : MimTab}

/-- the state after the mimic steps -/
theorem crbaWorldM_fold (ht : t.Ok s) (hs : t.Simple s) (hm : s.MassesOk) (d : Data K) {q : ℕ → K} (hq : s.At q) :
    ∃ d1 d2 : Data K, crbaWorldM s t d q = some (crbaWorldEnd s d2) ∧ CWM s t q d.M d1 ∧ d2.oYcrb = d1.oYcrb ∧
      (∀ r, d2.Ag r = d1.Ag r + ∑ m ∈ Ico 1 s.n, if (t.mim m).isSome then agTerm s q r m else 0) ∧
      (∀ i k j l, 1 ≤ i → i < s.n → t.mim i = none → k < s.jnv i → 1 ≤ j → j < s.n → t.mim j = none → l < s.jnv j →
        s.iv i + k ≤ s.iv j + l → d2.M (s.iv i + k) (s.iv j + l) = d1.M (s.iv i + k) (s.iv j + l)
          + ∑ m ∈ Ico 1 s.n, if (t.mim m).isSome then mimTerm s t q i k j l m else 0) := by
  have hB := crbaWorldM_bwd ht hs hm d q
  refine ⟨_, t.mims.foldl (crbaWorldMimicStep s t) (bwd (crbaWorldBwdM s t) s.n (fwd (crbaWorldFwd (s.ext t) q) s.n
      { d with oYcrb := upd d.oYcrb 0 0 })), ?_, hB, ?_⟩
  · unfold crbaWorldM
    rw [if_pos (crbaOk_of ht hs)]
  · obtain ⟨a, b, c⟩ := mimicFold ht hs hq (fun x hx => hx) ht.sorted (fun x hx => ⟨hB.J, hB.Y, fun i hi hin hn l hl => by
      have := ((ht.mem x.1).1 (List.mem_map_of_mem (f := Prod.fst) hx)).1
      exact hB.Ag i (by omega) hin hn l hl⟩)
    refine ⟨a, fun r => ?_, fun i k j l i1 hi hni hk j1 hj hnj hl hrc => ?_⟩
    · rw [b, mims_sum ht]
    · rw [c i k j l i1 hi hni hk j1 hj hnj hl hrc, mims_sum ht]

/-- the entries after the backward pass and the mimic steps give the mass matrix -/
theorem mimic_mass (ht : t.Ok s) (hs : t.Simple s) {q : ℕ → K} (hq : s.At q) {M0 M1 : ℕ → ℕ → K} {d2 : Data K}
    (hB : ∀ i, 1 ≤ i → i < s.n → t.mim i = none → ∀ k', k' < s.jnv i → ∀ j, j < s.n → t.mim j = none → anc s.par i j →
      ∀ l, l < s.jnv j → M1 (s.iv i + k') (s.iv j + l) = (s.Jc q i k').dot ((s.oYm q j).mulMF (s.Jc q j l)))
    (hB0 : ∀ i, 1 ≤ i → i < s.n → t.mim i = none → ∀ k', k' < s.jnv i → ∀ j, 1 ≤ j → j < s.n → t.mim j = none →
      ¬ anc s.par i j → ∀ l, l < s.jnv j → M1 (s.iv i + k') (s.iv j + l) = M0 (s.iv i + k') (s.iv j + l))
    (hd : t.BranchZero s M0)
    (hM : ∀ i k j l, 1 ≤ i → i < s.n → t.mim i = none → k < s.jnv i → 1 ≤ j → j < s.n → t.mim j = none → l < s.jnv j →
      s.iv i + k ≤ s.iv j + l → d2.M (s.iv i + k) (s.iv j + l) = M1 (s.iv i + k) (s.iv j + l)
        + ∑ m ∈ Ico 1 s.n, if (t.mim m).isSome then mimTerm s t q i k j l m else 0) :
    ∀ r, r < s.nv → ∀ c, c < s.nv → symUpper (addArmature s d2).M r c = s.massForm q (Sys.unit r) (Sys.unit c) := by
  have hP := own_packed ht
  have key : ∀ r, r < s.nv → ∀ c, c < s.nv → r ≤ c →
      (addArmature s d2).M r c = s.massForm q (Sys.unit r) (Sys.unit c) := by
    intro r hr c hc hrc
    obtain ⟨i, k, i1, hi, hk, rfl⟩ := hP.cover (show r < (s.own t).nv from hr)
    obtain ⟨j, l, j1, hj, hl, rfl⟩ := hP.cover (show c < (s.own t).nv from hc)
    have pl : ∀ {a b}, b < (s.own t).jnv a → t.mim a = none := by
      intro a b hb
      rw [own_jnv] at hb
      cases h : t.mim a with
      | none => rfl
      | some p => simp [h] at hb
    have hni := pl hk
    have hnj := pl hl
    have hrc' := hrc
    have hmono : j < i → (s.own t).iv j + (s.own t).jnv j ≤ (s.own t).iv i := fun h => hP.mono j1 h hi
    have hij : i ≤ j := by
      by_contra h
      have := hmono (by omega)
      omega
    rw [own_jnv, if_neg (by simp [hni])] at hk
    rw [own_jnv, if_neg (by simp [hnj])] at hl
    rw [own_iv ht i1 hi hni] at hr hrc ⊢
    rw [own_iv ht j1 hj hnj] at hc hrc ⊢
    rw [massForm_mimic ht hs hq i1 hi hni hk j1 hj hnj hl]
    have hd2 := hM i k j l i1 hi hni hk j1 hj hnj hl hrc
    have e1 : M1 (s.iv i + k) (s.iv j + l) = Mx s t q i k j l := by
      by_cases ha : anc s.par i j
      · rw [hB i i1 hi hni k hk j hj hnj ha l hl, Mx_anc ht hq i1 hi hk hj hl ha]
      · have hb : ¬ anc s.par j i := fun h => by
          have := anc_le ht.ext.par i hi h
          have e : i = j := by omega
          subst e
          exact ha (anc_refl ht.ext.par hi)
        rw [hB0 i i1 hi hni k hk j j1 hj hnj ha l hl, Mx_un ht hq i1 hi hk j1 hj hl ha hb]
        exact hd i j i1 hi j1 hj hni hnj ha hb k hk l hl
    have e2 : s.dotv (Sys.unit (s.iv i + k)) (fun r => s.arm r * Sys.unit (s.iv j + l) r)
        = if s.iv i + k = s.iv j + l then s.arm (s.iv i + k) else 0 := by
      unfold Sys.dotv
      rw [sum_eq_single (s.iv i + k)]
      · by_cases h : s.iv i + k = s.iv j + l
        · simp [Sys.unit, h]
        · simp [Sys.unit, h]
      · intro r _ hne
        simp [Sys.unit, hne]
      · intro h; exact absurd (mem_range.2 hr) h
    rw [e2, ← e1, ← hd2]
    change (if _ then _ else _) = _
    split <;> simp_all
  intro r hr c hc
  unfold symUpper
  split
  · exact key r hr c hc (by assumption)
  · rw [key c hc r hr (by omega), Sys.massForm_symm]

/-- `crba` (world convention) on a model with mimic joints: no access is out of range and the upper part of `data.M` is the mass
matrix of the model -/
theorem C78_mass_matrix (ht : t.Ok s) (hs : t.Simple s) (hm : s.MassesOk) {d : Data K} (hd : t.BranchZero s d.M)
    {q : ℕ → K} (hq : s.At q) : ∃ d', crbaWorldM s t d q = some d' ∧
      ∀ r, r < s.nv → ∀ c, c < s.nv → symUpper d'.M r c = s.massForm q (Sys.unit r) (Sys.unit c) := by
  obtain ⟨d1, d2, e, hB, -, -, hM⟩ := crbaWorldM_fold ht hs hm d hq
  exact ⟨_, e, mimic_mass ht hs hq (M0 := d.M) hB.M hB.M0 hd hM⟩

/-- the same in the local convention; `data.Fcrb` is to be zero, as in a fresh `Data` (`multibody/data.hxx:70`) -/
theorem C78_mass_matrix_local (ht : t.Ok s) (hs : t.Simple s) (hm : s.MassesOk) {d : Data K} (hd : t.BranchZero s d.M)
    (hF : ∀ x, 1 ≤ x → ∀ c, c < s.nv → d.Fcrb x c = 0) {q : ℕ → K} (hq : s.At q) : ∃ d', crbaLocalM s t d q = some d' ∧
      ∀ r, r < s.nv → ∀ c, c < s.nv → symUpper d'.M r c = s.massForm q (Sys.unit r) (Sys.unit c) := by
  have hL := crbaLocalM_bwd ht hs hm d hF hq
  have hW := crbaWorldM_bwd ht hs hm d q
  have hp : ParOk s.par s.n := ht.ext.par
  have hJn : ∀ i, t.mim i = none → (s.own t).jnv i = s.jnv i := fun i hn => by rw [own_jnv, if_neg (by simp [hn])]
  set d1 := bwd (crbaLocalBwdM s t) s.n (fwd (crbaLocalFwd s q) s.n d)
  have hY : ∀ i, 1 ≤ i → i < s.n → (d1.Ycrb i).matrix = s.lYm q i := by
    intro i h1 hi
    have := hL.acc.eq_acc hp (Sys.lYm_acc (s := s.own t) hp (own_at hq)) i h1 hi (by omega)
    rwa [own_lYm] at this
  refine ⟨_, by unfold crbaLocalM; rw [if_pos (crbaOk_of ht hs)], ?_⟩
  apply mimic_mass ht hs hq (M0 := d.M) (M1 := d1.M)
  · intro i h1 hi hn k' hk j hj hnj ha l hl
    have hj1 : 1 ≤ j := le_trans h1 (anc_le hp j hj ha)
    have := hL.M i h1 h1 hi k' (by rw [hJn i hn]; exact hk) j hj ha l (by rw [hJn j hnj]; exact hl)
    rwa [own_iv ht h1 hi hn, own_iv ht hj1 hj hnj, own_oYm, own_Jc] at this
  · intro i h1 hi hn k' hk j hj1 hj hnj ha l hl
    have := hL.M0 i h1 hi k' (by rw [hJn i hn]; exact hk) j hj1 hj ha l (by rw [hJn j hnj]; exact hl)
    rwa [own_iv ht h1 hi hn, own_iv ht hj1 hj hnj] at this
  · exact hd
  · intro i k j l i1 hi hni hk j1 hj hnj hl hrc
    rw [← mims_sum ht]
    refine localFold ht hs hq (fun x hx => ⟨hW.J, hW.Y, fun i hi hin hn l hl => ?_⟩) (fun x hx => hx) ht.sorted (fun x hx => ?_)
      i k j l i1 hi hni hk j1 hj hnj hl hrc
    · have := ((ht.mem x.1).1 (List.mem_map_of_mem (f := Prod.fst) hx)).1
      exact hW.Ag i (by omega) hin hn l hl
    · obtain ⟨m1, mn⟩ := ((ht.mem x.1).1 (List.mem_map_of_mem (f := Prod.fst) hx)).1
      refine ⟨fun i h1 hi => ?_, hY x.1 m1 mn, fun j hj ha hnj l hl => ?_⟩
      · have := hL.li i h1 hi
        rwa [own_X, own_S] at this
      · have hj1 : 1 ≤ j := le_trans m1 (anc_le hp j hj ha)
        have := hL.F x.1 m1 mn j hj (Or.inl ⟨m1, ha⟩) l (by rw [hJn j hnj]; exact hl)
        rwa [own_iv ht hj1 hj hnj, own_Fc] at this

/-- `crba` (world convention) also leaves the centroidal map, the mass and the centre of mass of a model with mimic joints -/
theorem C78_centroidal (ht : t.Ok s) (hs : t.Simple s) (hm : s.MassesOk) (hM : s.subMass 0 ≠ 0) (d : Data K)
    {q : ℕ → K} (hq : s.At q) : ∃ d', crbaWorldM s t d q = some d' ∧
      d'.mass 0 = s.subMass 0 ∧ d'.com 0 = s.comPos q 0 ∧
      ∀ v : ℕ → K, ∑ r ∈ range s.nv, v r • d'.Ag r = (s.hsum q v).atPoint (s.comPos q 0) := by
  obtain ⟨d1, d2, e, hB, hY, hA, -⟩ := crbaWorldM_fold ht hs hm d hq
  have hn := ht.ext.par.1
  have hY0 : (d2.oYcrb 0).matrix = s.oYm q 0 := by rw [hY]; exact hB.Y 0 hn
  have hl := lever_com hM hY0
  refine ⟨_, e, (inertia_of_matrix hY0).1, hl, fun v => ?_⟩
  have eA : (crbaWorldEnd s d2).Ag = aboutCols s.nv d2.Ag (d2.oYcrb 0).lever := rfl
  rw [eA, hl]
  refine (mulCols_about _ _ _ v).trans ?_
  congr 1
  have hP := own_packed ht
  rw [← spread_hsum ht]
  -- a force for every column of the extended system
  obtain ⟨A, hAx⟩ : ∃ A : ℕ → Force K, ∀ i, 1 ≤ i → i < s.n → ∀ k, k < s.jnv i →
      A (t.ivx i + k) = (s.oYm q i).mulMF (s.Jc q i k) := by
    have key : ∀ r, ∃ f : Force K, ∀ i k, 1 ≤ i → i < s.n → k < s.jnv i → r = t.ivx i + k →
        f = (s.oYm q i).mulMF (s.Jc q i k) := by
      intro r
      by_cases h : ∃ i k, (1 ≤ i ∧ i < s.n) ∧ k < s.jnv i ∧ r = t.ivx i + k
      · obtain ⟨i, k, ⟨h1, hi⟩, hk, e⟩ := h
        refine ⟨(s.oYm q i).mulMF (s.Jc q i k), fun j l hj1 hj hl e' => ?_⟩
        obtain ⟨rfl, rfl⟩ := ht.ext.inj h1 hi hj1 hj hk hl (e.symm.trans e')
        rfl
      · exact ⟨0, fun i k h1 hi hk e => absurd ⟨i, k, ⟨h1, hi⟩, hk, e⟩ h⟩
    choose A hA using key
    exact ⟨A, fun i h1 hi k hk => hA _ i k h1 hi hk rfl⟩
  rw [← Ag_mul ht.ext (q := q) ⟨hq.pl, hq.jt⟩ hAx, ← ht.ext.sum_seg]
  simp only [hA, smul_add, sum_add_distrib]
  have e1 : ∑ r ∈ range s.nv, v r • d1.Ag r = ∑ i ∈ Ico 1 s.n, if (t.mim i).isSome then 0 else
      ∑ k ∈ range (s.jnv i), v (s.iv i + k) • (s.oYm q i).mulMF (s.Jc q i k) := by
    rw [show s.nv = (s.own t).nv from rfl, ← hP.sum_seg (fun r => v r • d1.Ag r)]
    apply sum_congr rfl
    intro i hi
    obtain ⟨i1, hi⟩ := mem_Ico.1 hi
    rw [own_jnv]
    cases h : t.mim i with
    | some p => simp
    | none =>
      simp only [Option.isSome_none, Bool.false_eq_true, if_false]
      apply sum_congr rfl
      intro k hk
      rw [own_iv ht i1 hi h, hB.Ag i i1 hi h k (mem_range.1 hk)]
  have e2 : ∑ r ∈ range s.nv, v r • (∑ m ∈ Ico 1 s.n, if (t.mim m).isSome then agTerm s q r m else 0)
      = ∑ i ∈ Ico 1 s.n, if (t.mim i).isSome then
        ∑ k ∈ range (s.jnv i), v (s.iv i + k) • (s.oYm q i).mulMF (s.Jc q i k) else 0 := by
    simp only [smul_sum]
    rw [sum_comm]
    apply sum_congr rfl
    intro i hi
    obtain ⟨i1, hi⟩ := mem_Ico.1 hi
    cases h : t.mim i with
    | none => simp
    | some p =>
      obtain ⟨⟨p1, pi⟩, hpn, hiv, hji, hjp⟩ := ht.mim i p i1 hi h
      have hlt : s.iv i < s.nv := by
        have := hP.le_nv p1 (show p < (s.own t).n from by change p < s.n; omega)
        rw [own_iv ht p1 (by omega) hpn, own_jnv, if_neg (by simp [hpn])] at this
        change _ ≤ s.nv at this
        omega
      simp only [Option.isSome_some, if_true]
      rw [hji, sum_range_one, add_zero, sum_eq_single (s.iv i)]
      · rw [agTerm, if_pos rfl]
      · intro r _ hne
        rw [agTerm, if_neg hne, smul_zero]
      · intro h; exact absurd (mem_range.2 hlt) h
  rw [e1, e2, ← sum_add_distrib]
  apply sum_congr rfl
  intro i hi
  obtain ⟨i1, hi⟩ := mem_Ico.1 hi
  have e3 : ∑ k ∈ range ((s.ext t).jnv i), spread s t v ((s.ext t).iv i + k) • A ((s.ext t).iv i + k)
      = ∑ k ∈ range (s.jnv i), v (s.iv i + k) • (s.oYm q i).mulMF (s.Jc q i k) := by
    apply sum_congr rfl
    intro k hk
    have hk : k < s.jnv i := mem_range.1 hk
    rw [show (s.ext t).iv i = t.ivx i from rfl, spread_apply ht v i1 hi hk, hAx i i1 hi k hk]
  rw [e3]
  split <;> simp
end main

/-! ## models -/

section model
open Model
variable {K : Type u} [Field K] [LinearOrder K] [IsStrictOrderedRing K] [HasEps K]

/-- the joints of a model: those which are not mimic joints have as many velocity coordinates as their payload, the mimic joints have none and
follow an earlier joint with one degree of freedom which is not a mimic joint -/
structure Model.MimicJoints (m : Model K (Joint K)) : Prop where
  size : ∀ i e, 1 ≤ i → m.joints[i]? = some e → e.desc.payload.nv = e.desc.nvx
  plain : ∀ i e, 1 ≤ i → m.joints[i]? = some e → e.desc.mimic = none → e.desc.nvx = e.desc.nv
  mimic : ∀ i e x, 1 ≤ i → m.joints[i]? = some e → e.desc.mimic = some x → e.desc.nv = 0 ∧ e.desc.nvx = 1 ∧
    (1 ≤ x.1 ∧ x.1 < i) ∧ ∃ e', m.joints[x.1]? = some e' ∧ e'.desc.mimic = none ∧ e.idx_v = e'.idx_v ∧ e'.desc.nv = 1

/-- the tables of a model built by construction calls describe its system -/
theorem C78_tables {p0 : Joint K} {m : Model K (Joint K)} (hr : Reach p0 m) (hj : m.MimicJoints) {t : MimTab}
    (ht : m.mimTab = some t) (j0 : Joint K) (g : Motion K) (hc : crbaCheck (m.toSys j0 g).par (m.toSys j0 g).n = true) :
    t.Ok (m.toSys j0 g) :=
  mimTab_ok hr.inv ⟨(reach_mimicking hr).1, hj.size, hj.plain, hj.mimic, (reach_mimicking hr).2⟩ ht j0 g hc

/-- `crba` (world convention) on a fresh `Data` of a model built by construction calls, with mimic joints which meet the restrictions:
the mass matrix, the centroidal map, the mass and the centre of mass of the model -/
theorem C78_model {p0 : Joint K} {m : Model K (Joint K)} (hr : Reach p0 m) (hj : m.MimicJoints) {t : MimTab}
    (ht : m.mimTab = some t) (j0 : Joint K) (g : Motion K) (hc : crbaCheck (m.toSys j0 g).par (m.toSys j0 g).n = true)
    (hs : t.Simple (m.toSys j0 g)) (hm : (m.toSys j0 g).MassesOk) (hM : (m.toSys j0 g).subMass 0 ≠ 0) {q : ℕ → K}
    (hq : (m.toSys j0 g).At q) : ∃ d', crbaWorldM (m.toSys j0 g) t Data.zero q = some d' ∧
      (∀ r, r < m.nv → ∀ c, c < m.nv → symUpper d'.M r c = (m.toSys j0 g).massForm q (Sys.unit r) (Sys.unit c)) ∧
      d'.mass 0 = (m.toSys j0 g).subMass 0 ∧ d'.com 0 = (m.toSys j0 g).comPos q 0 ∧
      ∀ v : ℕ → K, ∑ r ∈ range m.nv, v r • d'.Ag r = ((m.toSys j0 g).hsum q v).atPoint ((m.toSys j0 g).comPos q 0) := by
  have hk := C78_tables hr hj ht j0 g hc
  obtain ⟨d1, e1, h1⟩ := C78_mass_matrix hk hs hm (d := Data.zero) (fun _ _ _ _ _ _ _ _ _ _ _ _ _ _ => rfl) hq
  obtain ⟨d2, e2, h2⟩ := C78_centroidal hk hs hm hM Data.zero hq
  rw [e1] at e2
  cases e2
  exact ⟨d1, e1, h1, h2⟩

/-- `crba` (local convention) on a fresh `Data` of a model built by construction calls -/
theorem C78_model_local {p0 : Joint K} {m : Model K (Joint K)} (hr : Reach p0 m) (hj : m.MimicJoints) {t : MimTab}
    (ht : m.mimTab = some t) (j0 : Joint K) (g : Motion K) (hc : crbaCheck (m.toSys j0 g).par (m.toSys j0 g).n = true)
    (hs : t.Simple (m.toSys j0 g)) (hm : (m.toSys j0 g).MassesOk) {q : ℕ → K} (hq : (m.toSys j0 g).At q) :
    ∃ d', crbaLocalM (m.toSys j0 g) t Data.zero q = some d' ∧
      ∀ r, r < m.nv → ∀ c, c < m.nv → symUpper d'.M r c = (m.toSys j0 g).massForm q (Sys.unit r) (Sys.unit c) :=
  C78_mass_matrix_local (C78_tables hr hj ht j0 g hc) hs hm (d := Data.zero) (fun _ _ _ _ _ _ _ _ _ _ _ _ _ _ => rfl)
    (fun _ _ _ _ => rfl) hq
end model

namespace Ex
open Model

/-- a decision of `OpOk` -/
def okMJ (m : Model ℚ (Joint ℚ)) : Op ℚ (Joint ℚ) → Bool
  | .addJoint a => match a.joint.mimic with
    | none => true
    | some x => a.joint.nq == 0 && a.joint.nv == 0 && decide (x.1 < m.njoints)
  | _ => true

/-- run a list of admissible calls -/
def runMJ (m : Model ℚ (Joint ℚ)) : List (Op ℚ (Joint ℚ)) → Option (Model ℚ (Joint ℚ))
  | [] => some m
  | op :: t => if okMJ m op then
      match m.step op with
      | some m' => runMJ m' t
      | none => none
    else none

theorem okMJ_ok (m : Model ℚ (Joint ℚ)) (op : Op ℚ (Joint ℚ)) (h : okMJ m op = true) : OpOk m op := by
  cases op with
  | addJoint a =>
    intro x hx
    simp only [okMJ, hx, Bool.and_eq_true, beq_iff_eq, decide_eq_true_eq] at h
    exact ⟨h.1.1, h.1.2, h.2⟩
  | _ => trivial

theorem reach_runMJ (p0 : Joint ℚ) : ∀ (l : List (Op ℚ (Joint ℚ))) (m m' : Model ℚ (Joint ℚ)), Reach p0 m →
    runMJ m l = some m' → Reach p0 m' := by
  intro l
  induction l with
  | nil => intro m m' h e; simp [runMJ] at e; exact e ▸ h
  | cons op t ih =>
    intro m m' h e
    simp only [runMJ] at e
    split at e
    · rename_i hok
      split at e
      · rename_i m2 hs
        exact ih m2 m' (.step h (okMJ_ok _ _ hok) hs) e
      · simp at e
    · simp at e

/-- a point mass -/
def ptMim : Inertia ℚ := ⟨1, 0, 0⟩

/-- a prismatic joint and its body -/
def pJMim (parent id : ℕ) (name : String) : List (Op ℚ (Joint ℚ)) :=
  [.addJoint (jaJ parent (jPrismatic 0) 1 name), .appendBody id ptMim 1]

/-- a mimic joint with its body, of the prismatic joint `(mid, mq, mv)` -/
def mJMim (parent id : ℕ) (name : String) (mid mq mv : ℕ) : List (Op ℚ (Joint ℚ)) :=
  [.addJoint ⟨parent, ⟨jMimic (jPrismatic 0) ((jPrismatic 0 : Joint ℚ).S fun _ => 0) linearAffine 1 0, 0, 0, 1,
    some (mid, mq, mv)⟩, 1, name, [], [], [], [], [], []⟩, .appendBody id ptMim 1]

/-- a decision about a model built by a list of calls, and the tables of its `Data` -/
theorem runMJ_dec {l : List (Op ℚ (Joint ℚ))} {Q : Model ℚ (Joint ℚ) → MimTab → Prop} [∀ m t, Decidable (Q m t)]
    (h : ((runMJ (empty (jtA 0)) l).bind fun m => m.mimTab.map fun t => decide (Q m t)) = some true) :
    ∃ m t, Reach (jtA 0) m ∧ m.mimTab = some t ∧ Q m t := by
  cases hm : runMJ (empty (jtA 0)) l with
  | none => rw [hm] at h; simp at h
  | some m =>
    rw [hm, Option.bind_some] at h
    cases ht : m.mimTab with
    | none => rw [ht] at h; simp at h
    | some t =>
      rw [ht, Option.map_some, Option.some.injEq, decide_eq_true_eq] at h
      exact ⟨m, t, reach_runMJ _ l _ _ .init hm, ht, h⟩

/-- `treeRec` with fuel, which the kernel evaluates -/
def treeFuel {α : Type*} (par : ℕ → ℕ) (root : α) (g : ℕ → α → α) : ℕ → ℕ → α
  | 0, _ => root
  | f + 1, i => if 1 ≤ i ∧ par i < i then g i (treeFuel par root g f (par i)) else root

theorem treeFuel_eq {α : Type*} (par : ℕ → ℕ) (root : α) (g : ℕ → α → α) : ∀ f i, i < f →
    treeFuel par root g f i = treeRec par root g i := by
  intro f
  induction f with
  | zero => intro i h; omega
  | succ f ih =>
    intro i h
    rw [treeRec, treeFuel]
    by_cases hc : 1 ≤ i ∧ par i < i
    · rw [if_pos hc, dif_pos hc, ih (par i) (by omega)]
    · rw [if_neg hc, dif_neg hc]

/-- entry of the mass matrix, as the kernel evaluates it -/
def massEntry (s : Sys ℚ) (q : ℕ → ℚ) (r c : ℕ) : ℚ :=
  ((List.range' 1 (s.n - 1)).map fun i =>
    (treeFuel s.par 0 (fun i x => s.jvel q (Sys.unit r) i + (s.X q i).actInv x) s.n i).dot
      ((s.Y i).mul (treeFuel s.par 0 (fun i x => s.jvel q (Sys.unit c) i + (s.X q i).actInv x) s.n i))).sum
    + s.dotv (Sys.unit r) (fun k => s.arm k * Sys.unit c k)

theorem massEntry_eq (s : Sys ℚ) (q : ℕ → ℚ) (r c : ℕ) : massEntry s q r c = s.massForm q (Sys.unit r) (Sys.unit c) := by
  unfold massEntry Sys.massForm
  congr 1
  rw [← List.sum_toFinset _ (List.nodup_range' ..)]
  apply sum_congr
  · ext i; simp; omega
  · intro i hi
    have hi := mem_Ico.1 hi
    rw [treeFuel_eq _ _ _ _ _ (by omega), treeFuel_eq _ _ _ _ _ (by omega)]
    rfl

/-- entry `(r, c)` of `data.M` -/
def entryM (o : Option (Data ℚ)) (r c : ℕ) : Option ℚ := o.map fun d => d.M r c

/-- the configuration at the origin -/
def qZero : ℕ → ℚ := fun _ => 0


/-- a robot with two mimic joints: 3 (under 2) and 5 (on another branch) follow 2 -/
def opsMim : List (Op ℚ (Joint ℚ)) :=
  [.addJoint (jaJ 0 (jPrismatic 0) mA "a"), .appendBody 1 iA mA,
   .addJoint (jaJ 1 (jPrismatic 1) mB "b"), .appendBody 2 iB mB,
   .addJoint ⟨2, ⟨jMimic (jPrismatic 2) ((jPrismatic 2 : Joint ℚ).S fun _ => 0) linearAffine 3 1, 0, 0, 1, some (2, 1, 1)⟩, mA, "m",
     [], [], [], [], [], []⟩, .appendBody 3 iA 1,
   .addJoint (jaJ 3 jTranslation mB "c"), .appendBody 4 iB mA,
   .addJoint ⟨1, ⟨jMimic (jPrismatic 0) ((jPrismatic 0 : Joint ℚ).S fun _ => 0) linearAffine 2 0, 0, 0, 1, some (2, 1, 1)⟩, mB, "n",
     [], [], [], [], [], []⟩, .appendBody 5 iB mB,
   .addJoint (jaJ 5 (jPrismatic 1) mA "d"), .appendBody 6 iA mB]

def modMimOpt : Option (Model ℚ (Joint ℚ)) := runMJ (empty (jtA 0)) opsMim
def modMim : Model ℚ (Joint ℚ) := modMimOpt.getD (empty (jtA 0))

set_option maxRecDepth 100000 in
theorem modMim_some : modMimOpt = some modMim := by
  have h : modMimOpt.isSome = true := by decide +kernel
  cases hm : modMimOpt with
  | none => rw [hm] at h; cases h
  | some m => unfold modMim; rw [hm]; rfl

theorem modMim_reach : Reach (jtA 0) modMim := reach_runMJ _ _ _ _ .init modMim_some

def mim3 : Joint ℚ := jMimic (jPrismatic 2) ((jPrismatic 2 : Joint ℚ).S fun _ => 0) linearAffine 3 1
def mim5 : Joint ℚ := jMimic (jPrismatic 0) ((jPrismatic 0 : Joint ℚ).S fun _ => 0) linearAffine 2 0

theorem modMim_joints : modMim.joints = [⟨⟨jtA 0, 0, 0, 0, none⟩, 0, 0, 0, 0⟩, ⟨⟨jPrismatic 0, 1, 1, 1, none⟩, 1, 0, 0, 0⟩,
    ⟨⟨jPrismatic 1, 1, 1, 1, none⟩, 2, 1, 1, 1⟩, ⟨⟨mim3, 0, 0, 1, some (2, 1, 1)⟩, 3, 1, 1, 2⟩,
    ⟨⟨jTranslation, 3, 3, 3, none⟩, 4, 2, 2, 3⟩, ⟨⟨mim5, 0, 0, 1, some (2, 1, 1)⟩, 5, 1, 1, 6⟩,
    ⟨⟨jPrismatic 1, 1, 1, 1, none⟩, 6, 5, 5, 7⟩] := by rfl
theorem modMim_n : modMim.njoints = 7 := by rfl
theorem modMim_pl : modMim.jointPlacements = [1, mA, mB, mA, mB, mB, mA] := by rfl

theorem modMim_mimic : modMim.MimicJoints := by
  constructor
  · intro i e h1 he
    rw [modMim_joints] at he
    rcases i with _ | _ | _ | _ | _ | _ | _ | i <;> simp at he h1 <;> subst he <;> rfl
  · intro i e h1 he hn
    rw [modMim_joints] at he
    rcases i with _ | _ | _ | _ | _ | _ | _ | i <;> simp at he h1 <;> subst he <;> first | rfl | cases hn
  · intro i e x h1 he hn
    rw [modMim_joints] at he
    rcases i with _ | _ | _ | _ | _ | _ | _ | i <;> simp at he h1 <;> subst he <;> first | (cases hn; done) | skip
    all_goals
      cases hn
      refine ⟨rfl, rfl, by decide, ⟨⟨jPrismatic 1, 1, 1, 1, none⟩, 2, 1, 1, 1⟩, ?_, rfl, rfl, rfl⟩
      rw [modMim_joints]; rfl

/-- any configuration is admissible -/
theorem modMim_at (q : ℕ → ℚ) : (modMim.toSys (jtA 0) gA).At q := by
  refine ⟨fun i h1 hi => ?_, fun i h1 hi => ?_⟩
  · change i < modMim.njoints at hi
    rw [modMim_n] at hi
    change (modMim.jointPlacements.getD i 1).Valid
    rw [modMim_pl]
    interval_cases i <;> first | exact mA_valid | exact mB_valid
  · change i < modMim.njoints at hi
    rw [modMim_n] at hi
    change ((modMim.joints[i]?.map (·.desc.payload)).getD (jtA 0)).Ok _
    rw [modMim_joints]
    interval_cases i
    · exact jPrismatic_ok _ _
    · exact jPrismatic_ok _ _
    · exact jMimic_ok (jPrismatic_ok _ _) (fun _ _ => rfl)
    · exact jTranslation_ok _
    · exact jMimic_ok (jPrismatic_ok _ _) (fun _ _ => rfl)
    · exact jPrismatic_ok _ _

def tabMim : MimTab := modMim.mimTab.getD ⟨fun _ => none, fun _ => 0, 0, fun _ => 0, fun _ => 0, [], fun _ => []⟩

set_option maxRecDepth 100000 in
theorem tabMim_some : modMim.mimTab = some tabMim := by
  have h : modMim.mimTab.isSome = true := by decide +kernel
  cases hm : modMim.mimTab with
  | none => rw [hm] at h; cases h
  | some m => unfold tabMim; rw [hm]; rfl

theorem modMim_check : crbaCheck (modMim.toSys (jtA 0) gA).par (modMim.toSys (jtA 0) gA).n = true := by decide +kernel

theorem tabMim_ok : tabMim.Ok (modMim.toSys (jtA 0) gA) := C78_tables modMim_reach modMim_mimic tabMim_some _ _ modMim_check

theorem tabMim_anc {i j : ℕ} (h1 : 1 ≤ i) (hj : j < 7) : anc (modMim.toSys (jtA 0) gA).par i j ↔ i ∈ tabMim.sup j := by
  rw [tabMim_ok.sup j hj]
  unfold Sys.sup
  rw [List.mem_cons, mem_path (n := 7) (show ParOk (modMim.toSys (jtA 0) gA).par 7 from tabMim_ok.ext.par) j hj]
  constructor
  · intro h; exact Or.inr ⟨h1, h⟩
  · rintro (h | h)
    · omega
    · exact h.2

set_option maxRecDepth 100000 in
theorem tabMim_simple : tabMim.Simple (modMim.toSys (jtA 0) gA) where
  sub := by
    intro i h1 hi hn
    have e : subtree (modMim.toSys (jtA 0) gA).par (modMim.toSys (jtA 0) gA).n i = (Ico 1 7).filter (fun j => i ∈ tabMim.sup j) := by
      ext j
      rw [mem_subtree, mem_filter, mem_Ico]
      constructor
      · rintro ⟨h, ha⟩; exact ⟨h, (tabMim_anc h1 h.2).1 ha⟩
      · rintro ⟨h, ha⟩; exact ⟨h, (tabMim_anc h1 h.2).2 ha⟩
    rw [e]
    have : ∀ i < 7, 1 ≤ i → tabMim.mim i = none →
        tabMim.nvSub i = ((∑ j ∈ (Ico 1 7).filter (fun j => i ∈ tabMim.sup j), tabMim.nvs j : ℕ) : ℤ) := by decide +kernel
    exact this i hi h1 hn
  first := by
    intro i p h1 hi h
    have : ∀ i < 7, 1 ≤ i → ∀ p ∈ tabMim.mim i, 0 < (modMim.toSys (jtA 0) gA).iv p := by decide +kernel
    exact this i hi h1 p h
  alone := by
    intro i j h1 hi hj hmi hmj ha
    have : ∀ i < 7, ∀ j < 7, (1 ≤ i ∧ (tabMim.mim i).isSome = true ∧ (tabMim.mim j).isSome = true ∧ i ∈ tabMim.sup j) → i = j := by
      decide +kernel
    exact this i hi j hj ⟨h1, hmi, hmj, (tabMim_anc h1 hj).1 ha⟩
  branch := by
    have : ∀ x ∈ tabMim.mims, 1 ≤ x.1 ∧ (x.1 < x.2 ∧ x.2 < 7 ∧ x.1 ∈ tabMim.sup x.2 ∧
        ∀ j < 7, x.1 ∈ tabMim.sup j → j = x.1 ∨ x.2 ∈ tabMim.sup j) := by decide +kernel
    intro x hx
    obtain ⟨h0, h1, h2, h3, h4⟩ := this x hx
    refine Or.inr ⟨h1, h2, (tabMim_anc h0 h2).2 h3, fun j hj ha => ?_⟩
    rcases h4 j hj ((tabMim_anc h0 hj).1 ha) with h | h
    · exact Or.inl h
    · exact Or.inr ((tabMim_anc (by omega) hj).2 h)
  single := by
    intro i p k h1 hi h hk ha hn hle
    have : ∀ i < 7, 1 ≤ i → ∀ p ∈ tabMim.mim i, ∀ k ∈ tabMim.sup i, 1 ≤ k → tabMim.mim k = none →
        (modMim.toSys (jtA 0) gA).iv p ≤ (modMim.toSys (jtA 0) gA).iv k → (modMim.toSys (jtA 0) gA).jnv k = 1 := by decide +kernel
    exact this i hi h1 p h k ((tabMim_anc hk hi).1 ha) hk hn hle

theorem modMim_masses : (modMim.toSys (jtA 0) gA).MassesOk := by
  have : ∀ i < 7, 1 ≤ i → 0 ≤ ((modMim.toSys (jtA 0) gA).Y i).mass ∧
    (((modMim.toSys (jtA 0) gA).Y i).mass = 0 ∨ (HasEps.eps : ℚ) ≤ ((modMim.toSys (jtA 0) gA).Y i).mass) := by decide +kernel
  intro i h1 hi
  exact (this i hi h1).2

theorem modMim_mass : (modMim.toSys (jtA 0) gA).subMass 0 ≠ 0 := by
  unfold Sys.subMass
  rw [subtree_root (toSys_parOk modMim_reach.inv _ _)]
  change ∑ b ∈ Ico 1 modMim.njoints, _ ≠ 0
  rw [modMim_n]
  decide +kernel

end Ex
open Ex Model

/-- The hypotheses of `C78_mass_matrix`, `C78_mass_matrix_local`, `C78_centroidal`, `C78_model` and `C78_model_local` hold of a robot with two mimic joints. -/
example (q : ℕ → ℚ) : Reach (jtA 0) modMim ∧ modMim.MimicJoints ∧ modMim.mimTab = some tabMim ∧
    crbaCheck (modMim.toSys (jtA 0) gA).par (modMim.toSys (jtA 0) gA).n = true ∧ tabMim.Ok (modMim.toSys (jtA 0) gA) ∧
    tabMim.Simple (modMim.toSys (jtA 0) gA) ∧ (modMim.toSys (jtA 0) gA).MassesOk ∧ (modMim.toSys (jtA 0) gA).At q ∧
    tabMim.BranchZero (modMim.toSys (jtA 0) gA) (Data.zero : Data ℚ).M ∧ (modMim.toSys (jtA 0) gA).subMass 0 ≠ 0 ∧
    tabMim.mims = [(3, 4), (5, 6)] :=
  ⟨modMim_reach, modMim_mimic, tabMim_some, modMim_check, tabMim_ok, tabMim_simple, modMim_masses, modMim_at q,
    fun _ _ _ _ _ _ _ _ _ _ _ _ _ _ => rfl, modMim_mass, by decide +kernel⟩

set_option maxRecDepth 100000 in
/-- `algorithm/crba.hxx:185, 417`: when a mimic joint follows the joint with the first velocity coordinate, the loop over its supports
does not stop at the universe, whose `idx_v` is 0 too, and reads `supports` out of range -/
theorem C78_first_counterexample : ∃ m t, Reach (jtA 0) m ∧ m.mimTab = some t ∧
    (m.parents = [0, 0, 1] ∧ t.mim 1 = none ∧ t.mim 2 = some 1) ∧
    ∀ (d : Data ℚ) (q : ℕ → ℚ), crbaWorldM (m.toSys (jtA 0) 0) t d q = none ∧ crbaLocalM (m.toSys (jtA 0) 0) t d q = none := by
  obtain ⟨m, t, h1, h2, h3, h4⟩ := runMJ_dec (l := pJMim 0 1 "a" ++ mJMim 1 2 "m" 1 0 0)
    (Q := fun m t => (m.parents = [0, 0, 1] ∧ t.mim 1 = none ∧ t.mim 2 = some 1) ∧ crbaOk (m.toSys (jtA 0) 0) t = false)
    (by decide +kernel)
  refine ⟨m, t, h1, h2, h3, fun d q => ?_⟩
  simp [crbaWorldM, crbaLocalM, h4]

set_option maxRecDepth 100000 in
/-- `algorithm/crba.hxx:189-199, 421-431`: the block `temp_JAG` is not transposed, so that a joint with three degrees of freedom between
the followed joint and the mimic joint makes the addition read out of range -/
theorem C78_single_counterexample : ∃ m t, Reach (jtA 0) m ∧ m.mimTab = some t ∧
    (m.parents = [0, 0, 1, 2, 3, 4] ∧ m.nvs = [0, 1, 1, 3, 0, 1] ∧ t.mim 4 = some 2) ∧
    ∀ (d : Data ℚ) (q : ℕ → ℚ), crbaWorldM (m.toSys (jtA 0) 0) t d q = none ∧ crbaLocalM (m.toSys (jtA 0) 0) t d q = none := by
  obtain ⟨m, t, h1, h2, h3, h4⟩ := runMJ_dec (l := pJMim 0 1 "a" ++ pJMim 1 2 "b" ++ [.addJoint (jaJ 2 (jTranslation) 1 "t"),
      .appendBody 3 ptMim 1] ++ mJMim 3 4 "m" 2 1 1 ++ pJMim 4 5 "c")
    (Q := fun m t => (m.parents = [0, 0, 1, 2, 3, 4] ∧ m.nvs = [0, 1, 1, 3, 0, 1] ∧ t.mim 4 = some 2) ∧
      crbaOk (m.toSys (jtA 0) 0) t = false) (by decide +kernel)
  refine ⟨m, t, h1, h2, h3, fun d q => ?_⟩
  simp [crbaWorldM, crbaLocalM, h4]

set_option maxRecDepth 100000 in
/-- `algorithm/crba.hxx:147-217`: with two mimic joints on one branch, which follow the same joint, the product of the two is missing from the
diagonal of the mass matrix, in both conventions -/
theorem C78_alone_counterexample : ∃ m t, Reach (jtA 0) m ∧ m.mimTab = some t ∧
    (m.parents = [0, 0, 1, 2, 3, 4] ∧ t.mims.map (·.1) = [3, 4] ∧ t.mim 3 = some 2 ∧ t.mim 4 = some 2) ∧
    entryM (crbaWorldM (m.toSys (jtA 0) 0) t Data.zero qZero) 1 1 = some 19 ∧
    entryM (crbaLocalM (m.toSys (jtA 0) 0) t Data.zero qZero) 1 1 = some 19 ∧
    (m.toSys (jtA 0) 0).massForm qZero (Sys.unit 1) (Sys.unit 1) = 23 := by
  simp only [← massEntry_eq]
  exact runMJ_dec (l := pJMim 0 1 "a" ++ pJMim 1 2 "b" ++ mJMim 2 3 "m" 2 1 1 ++ mJMim 3 4 "n" 2 1 1 ++ pJMim 4 5 "c") (by decide +kernel)

set_option maxRecDepth 100000 in
/-- `multibody/data.hxx:217-226`: when the last joint of a subtree is a mimic joint, `nvSubtree` is wrong and entries of the mass matrix are
missing, down to its diagonal, in both conventions -/
theorem C78_sub_counterexample : ∃ m t, Reach (jtA 0) m ∧ m.mimTab = some t ∧
    (m.parents = [0, 0, 1, 2, 3] ∧ t.mims.map (·.1) = [4] ∧ t.mim 4 = some 2) ∧
    entryM (crbaWorldM (m.toSys (jtA 0) 0) t Data.zero qZero) 2 2 = some 0 ∧
    entryM (crbaLocalM (m.toSys (jtA 0) 0) t Data.zero qZero) 2 2 = some 0 ∧
    (m.toSys (jtA 0) 0).massForm qZero (Sys.unit 2) (Sys.unit 2) = 2 := by
  simp only [← massEntry_eq]
  exact runMJ_dec (l := pJMim 0 1 "a" ++ pJMim 1 2 "b" ++ pJMim 2 3 "c" ++ mJMim 3 4 "m" 2 1 1) (by decide +kernel)

set_option maxRecDepth 100000 in
/-- `multibody/data.hxx:228-241`, `algorithm/crba.hxx:171-177`: only the first branch of the subtree of a mimic joint is added to the row of the
joint it follows -/
theorem C78_branch_counterexample : ∃ m t, Reach (jtA 0) m ∧ m.mimTab = some t ∧
    (m.parents = [0, 0, 1, 2, 3, 3] ∧ t.mims = [(3, 4)] ∧ t.mim 3 = some 2) ∧
    entryM (crbaWorldM (m.toSys (jtA 0) 0) t Data.zero qZero) 1 3 = some 1 ∧
    entryM (crbaLocalM (m.toSys (jtA 0) 0) t Data.zero qZero) 1 3 = some 1 ∧
    (m.toSys (jtA 0) 0).massForm qZero (Sys.unit 1) (Sys.unit 3) = 2 := by
  simp only [← massEntry_eq]
  exact runMJ_dec (l := pJMim 0 1 "a" ++ pJMim 1 2 "b" ++ mJMim 2 3 "m" 2 1 1 ++ pJMim 3 4 "c" ++ pJMim 3 5 "d") (by decide +kernel)

set_option maxRecDepth 100000 in
/-- `algorithm/crba.hxx:166-217, 493-548`: `crba` does not reset `data.M`, to which the mimic joints add. When a mimic joint and the joint it
follows are on different branches, a second call on the same `data` counts the mimic joint twice, in both conventions. -/
theorem C78_second_call_counterexample : ∃ m t, Reach (jtA 0) m ∧ m.mimTab = some t ∧
    (m.parents = [0, 0, 1, 1, 3] ∧ t.mims = [(3, 4)] ∧ t.mim 3 = some 2) ∧
    entryM (crbaWorldM (m.toSys (jtA 0) 0) t Data.zero qZero) 1 2 = some 1 ∧
    entryM ((crbaWorldM (m.toSys (jtA 0) 0) t Data.zero qZero).bind fun d => crbaWorldM (m.toSys (jtA 0) 0) t d qZero) 1 2 = some 2 ∧
    entryM (crbaLocalM (m.toSys (jtA 0) 0) t Data.zero qZero) 1 2 = some 1 ∧
    entryM ((crbaLocalM (m.toSys (jtA 0) 0) t Data.zero qZero).bind fun d => crbaLocalM (m.toSys (jtA 0) 0) t d qZero) 1 2 = some 2 ∧
    (m.toSys (jtA 0) 0).massForm qZero (Sys.unit 1) (Sys.unit 2) = 1 := by
  simp only [← massEntry_eq]
  exact runMJ_dec (l := pJMim 0 1 "a" ++ pJMim 1 2 "b" ++ mJMim 1 3 "m" 2 1 1 ++ pJMim 3 4 "c") (by decide +kernel)

set_option maxRecDepth 100000 in
/-- `algorithm/crba.hxx:330-336`: in the local convention a mimic joint adds the columns of `Fcrb` to those of its parent, which are not reset.
A second call on the same `data` is wrong as soon as a mimic joint carries a joint. -/
theorem C78_second_local_counterexample : ∃ m t, Reach (jtA 0) m ∧ m.mimTab = some t ∧
    (m.parents = [0, 0, 1, 2, 3] ∧ t.mims = [(3, 4)] ∧ t.mim 3 = some 2) ∧
    entryM (crbaLocalM (m.toSys (jtA 0) 0) t Data.zero qZero) 0 2 = some 1 ∧
    entryM ((crbaLocalM (m.toSys (jtA 0) 0) t Data.zero qZero).bind fun d => crbaLocalM (m.toSys (jtA 0) 0) t d qZero) 0 2 = some 2 ∧
    (m.toSys (jtA 0) 0).massForm qZero (Sys.unit 0) (Sys.unit 2) = 1 := by
  simp only [← massEntry_eq]
  exact runMJ_dec (l := pJMim 0 1 "a" ++ pJMim 1 2 "b" ++ mJMim 2 3 "m" 2 1 1 ++ pJMim 3 4 "c") (by decide +kernel)

end Pin
