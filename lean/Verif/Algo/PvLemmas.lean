import Verif.Algo.Pv
import Verif.Algo.PvCore
import Verif.Algo.AbaLemmas
import Verif.Algo.CholeskyLemmas

/-!
# What the passes of `initPvSolver` and `pv` leave in `Data`
-/

namespace Pin
open Finset
set_option linter.unusedSectionVars false
set_option linter.unusedSimpArgs false
variable {K : Type*} [Field K] {s : Sys K} {ms : ℕ → RCM K} {nc : ℕ}

theorem upTo_succ {D : Type*} (f : ℕ → D → D) (n : ℕ) (d : D) : upTo f (n + 1) d = f n (upTo f n d) := by
  unfold upTo
  rw [List.range_succ, List.foldl_append]
  rfl

/-! ## the rows -/

theorem pvOwn_succ (ms : ℕ → RCM K) (k : ℕ) :
    pvOwn ms (k + 1) = upd (pvOwn ms k) (ms k).j1 (pvOwn ms k (ms k).j1 + (ms k).type.dim) := by
  unfold pvOwn
  rw [upTo_succ]

theorem pvOwn_mono (ms : ℕ → RCM K) (k j : ℕ) : pvOwn ms k j ≤ pvOwn ms (k + 1) j := by
  rw [pvOwn_succ]
  by_cases h : j = (ms k).j1
  · rw [h, upd_self]; omega
  · rw [upd_ne _ _ h]

theorem pvOwn_le (ms : ℕ → RCM K) {k k' : ℕ} (h : k ≤ k') (j : ℕ) : pvOwn ms k j ≤ pvOwn ms k' j := by
  induction h with
  | refl => exact le_rfl
  | step _ ih => exact ih.trans (pvOwn_mono ms _ j)

theorem pvOwn_room (ms : ℕ → RCM K) {k k' : ℕ} (h : k < k') :
    pvOwn ms k (ms k).j1 + (ms k).type.dim ≤ pvOwn ms k' (ms k).j1 := by
  have := pvOwn_le ms (show k + 1 ≤ k' from h) (ms k).j1
  rw [pvOwn_succ, upd_self] at this
  exact this

theorem pvOwn_zero (hj : ∀ k < nc, 1 ≤ (ms k).j1) : pvOwn ms nc 0 = 0 := by
  induction nc with
  | zero => rfl
  | succ n ih =>
    rw [pvOwn_succ, upd_ne _ _ (by have := hj n (by omega); omega)]
    exact ih fun k hk => hj k (by omega)

/-- the rows of the bodies are those of the contacts -/
theorem pvOwn_sum {α : Type*} [AddCommMonoid α] {n : ℕ} (hj : ∀ k < nc, (ms k).j1 < n) (g : ℕ → ℕ → α) :
    ∑ i ∈ range n, ∑ c ∈ range (pvOwn ms nc i), g i c
      = ∑ k ∈ range nc, ∑ r ∈ range (ms k).type.dim, g (ms k).j1 (pvOwn ms k (ms k).j1 + r) := by
  induction nc with
  | zero => exact sum_eq_zero fun i _ => by simp [pvOwn, upTo]
  | succ m ih =>
    rw [sum_range_succ, ← ih fun k hk => hj k (by omega)]
    have : ∀ i ∈ range n, ∑ c ∈ range (pvOwn ms (m + 1) i), g i c = ∑ c ∈ range (pvOwn ms m i), g i c
        + if i = (ms m).j1 then ∑ r ∈ range (ms m).type.dim, g (ms m).j1 (pvOwn ms m (ms m).j1 + r) else 0 := by
      intro i _
      rw [pvOwn_succ]
      by_cases h : i = (ms m).j1
      · rw [if_pos h, h, upd_self, sum_range_add]
      · rw [if_neg h, upd_ne _ _ h, add_zero]
    rw [sum_congr rfl this, sum_add_distrib, sum_ite_eq', if_pos (mem_range.2 (hj m (by omega)))]

/-- `constraints_supported_dim` and `par_cons_ind` after `initPvSolver` -/
theorem pvCount_slots (hp : ParOk s.par s.n) (own p0 : ℕ → ℕ) :
    Slots s.par s.n own (bwd (pvCount s) s.n (own, p0)).1 (bwd (pvCount s) s.n (own, p0)).2 := by
  have key := bwd_ind (step := pvCount s) (n := s.n) (d := (own, p0))
    (P := fun k (x : (ℕ → ℕ) × (ℕ → ℕ)) =>
      (∀ i, own i ≤ x.1 i) ∧
      (∀ c, k ≤ c → c < s.n → own (s.par c) ≤ x.2 c ∧ x.2 c + x.1 c ≤ x.1 (s.par c)) ∧
      (∀ c c', k ≤ c → c < c' → c' < s.n → s.par c = s.par c' → x.2 c' + x.1 c' ≤ x.2 c) ∧
      (∀ i r, r < x.1 i → r < own i ∨
        ∃ c, (k ≤ c ∧ c < s.n) ∧ s.par c = i ∧ x.2 c ≤ r ∧ r < x.2 c + x.1 c)) hp.1
    ⟨fun _ => le_rfl, fun c h1 h2 => by omega, fun c c' h1 h2 h3 => by omega, fun i r h => Or.inl h⟩ ?_
  · obtain ⟨a, b, c, d⟩ := key
    exact ⟨fun i _ => a i, fun i h1 hi => (b i h1 hi).1, fun i h1 hi => (b i h1 hi).2, c, fun i _ r hr => d i r hr⟩
  · rintro i ⟨dm, pi⟩ h1 hi ⟨a, b, c, d⟩
    have hpi := hp.2 i h1 hi
    unfold pvCount
    dsimp only at a b c d ⊢
    refine ⟨fun j => ?_, fun j hj hjn => ?_, fun j j' hj hjj hjn hpp => ?_, fun j r hr => ?_⟩
    · by_cases hj : j = s.par i
      · subst hj; rw [upd_self]; have := a (s.par i); omega
      · rw [upd_ne _ _ hj]; exact a j
    · rcases Nat.eq_or_lt_of_le hj with e | e
      · subst e
        rw [upd_self, upd_self, upd_ne _ _ (by omega)]
        exact ⟨a _, le_rfl⟩
      · have hb := b j (by omega) hjn
        rw [upd_ne pi _ (by omega : j ≠ i), upd_ne dm _ (by omega : j ≠ s.par i)]
        refine ⟨hb.1, ?_⟩
        by_cases hpp : s.par j = s.par i
        · rw [hpp, upd_self]; rw [hpp] at hb; omega
        · rw [upd_ne _ _ hpp]; exact hb.2
    · rw [upd_ne pi _ (by omega : j' ≠ i), upd_ne dm _ (by omega : j' ≠ s.par i)]
      rcases Nat.eq_or_lt_of_le hj with e | e
      · subst e
        rw [upd_self]
        have := (b j' (by omega) hjn).2
        rw [← hpp] at this
        exact this
      · rw [upd_ne _ _ (by omega)]
        exact c j j' (by omega) hjj hjn hpp
    · by_cases hj : j = s.par i
      · subst hj
        rw [upd_self] at hr
        by_cases hlt : r < dm (s.par i)
        · rcases d (s.par i) r hlt with e | ⟨c', ⟨c1, c2⟩, c3, c4, c5⟩
          · exact Or.inl e
          · refine Or.inr ⟨c', ⟨by omega, c2⟩, c3, ?_⟩
            rw [upd_ne pi _ (by omega : c' ≠ i), upd_ne dm _ (by omega : c' ≠ s.par i)]
            exact ⟨c4, c5⟩
        · refine Or.inr ⟨i, ⟨le_rfl, hi⟩, rfl, ?_⟩
          rw [upd_self, upd_ne _ _ (by omega)]
          omega
      · rw [upd_ne _ _ hj] at hr
        rcases d j r hr with e | ⟨c', ⟨c1, c2⟩, c3, c4, c5⟩
        · exact Or.inl e
        · refine Or.inr ⟨c', ⟨by omega, c2⟩, c3, ?_⟩
          rw [upd_ne pi _ (by omega : c' ≠ i), upd_ne dm _ (by omega : c' ≠ s.par i)]
          exact ⟨c4, c5⟩

theorem pvPut_ok (ms : ℕ → RCM K) (nc : ℕ) :
    let y := upTo (pvPut ms) nc ((fun _ _ => 0), fun _ => 0)
    y.2 = pvOwn ms nc ∧ ∀ k < nc, ∀ r < (ms k).type.dim, y.1 (ms k).j1 (pvOwn ms k (ms k).j1 + r) = (ms k).pvCol r := by
  apply upTo_ind (P := fun n (y : (ℕ → ℕ → Force K) × (ℕ → ℕ)) => y.2 = pvOwn ms n ∧
    ∀ k < n, ∀ r < (ms k).type.dim, y.1 (ms k).j1 (pvOwn ms k (ms k).j1 + r) = (ms k).pvCol r)
  · exact ⟨rfl, fun k hk => by omega⟩
  · rintro n ⟨y1, y2⟩ hn ⟨e, h⟩
    dsimp only at e h
    subst e
    refine ⟨by rw [pvOwn_succ]; rfl, fun k hk r hr => ?_⟩
    change upd y1 (ms n).j1 (putSeg (y1 (ms n).j1) (pvOwn ms n (ms n).j1) (ms n).type.dim (ms n).pvCol) _ _ = _
    rcases Nat.eq_or_lt_of_le (Nat.le_of_lt_succ hk) with e | e
    · subst e
      rw [upd_self, putSeg_read _ _ hr]
    · by_cases hj : (ms k).j1 = (ms n).j1
      · have := pvOwn_room ms e
        rw [hj] at this ⊢
        rw [upd_self]
        unfold putSeg
        rw [if_neg (by omega)]
        have := h k e r hr
        rw [hj] at this
        exact this
      · rw [upd_ne _ _ hj]
        exact h k e r hr

/-- What the solver keeps from one call to the next. -/
structure PvReady (s : Sys K) (ms : ℕ → RCM K) (nc : ℕ) (x : PvData K) : Prop where
  slots : Slots s.par s.n (pvOwn ms nc) x.dim x.pind
  KA : ∀ k < nc, ∀ r < (ms k).type.dim, x.KA (ms k).j1 (pvOwn ms k (ms k).j1 + r) = (ms k).pvCol r
  LA : ∀ i < s.n, ∀ r < x.dim i, ∀ c ≤ r, x.LA i r c ≠ 0 →
    ∃ k, (1 ≤ k ∧ k < s.n) ∧ s.par k = i ∧ (x.pind k ≤ r ∧ r < x.pind k + x.dim k) ∧ x.pind k ≤ c ∧ c < x.pind k + x.dim k

theorem initPvSolver_ready (hp : ParOk s.par s.n) (x : PvData K) : PvReady s ms nc (initPvSolver s x ms nc) :=
  ⟨pvCount_slots hp _ _, (pvPut_ok ms nc).2, fun _ _ _ _ _ _ h => absurd rfl h⟩

/-- a row of a contact -/
theorem pvOwn_row {k r : ℕ} (hk : k < nc)
    (hr : r < (ms k).type.dim) : pvOwn ms k (ms k).j1 + r < pvOwn ms nc (ms k).j1 := by
  have := pvOwn_room ms hk
  omega

/-! ## before the backward pass -/

/-- the part of `Data` that is that of `aba` -/
def pvπ (s : Sys K) (o : ℕ → SE3 K) (x : PvData K) : Data K :=
  { x.data with a_gf := upd x.bias 0 (-s.grav), oMi := o }

theorem pvFwd1_proj (o : ℕ → SE3 K) (bp : Bool) (q v : ℕ → K) {i : ℕ} (h1 : 1 ≤ i) (x : PvData K) :
    pvπ s o (pvFwd1 s bp q v i x) = abaLocalFwd1 s q v i (pvπ s o x) := by
  have e : ∀ b : Motion K, upd (upd x.bias i b) 0 (-s.grav) = upd (upd x.bias 0 (-s.grav)) i b := fun b =>
    Function.update_comm (by omega) _ _ _
  by_cases h : s.par i > 0
  · cases bp <;> simp only [pvFwd1, pvπ, abaLocalFwd1, h, if_true, e, Bool.false_eq_true, if_false]
  · cases bp <;> simp only [pvFwd1, pvπ, abaLocalFwd1, h, if_true, e, Bool.false_eq_true, if_false]

theorem pvFwd1_keep (bp : Bool) (q v : ℕ → K) (i : ℕ) (x : PvData K) :
    pvFwd1 s bp q v i x = { x with data := (pvFwd1 s bp q v i x).data, bias := (pvFwd1 s bp q v i x).bias } := rfl

theorem pvFwd1_agf (bp : Bool) (q v : ℕ → K) (i : ℕ) (x : PvData K) :
    (pvFwd1 s bp q v i x).data.a_gf = upd x.data.a_gf i
      ⟨(s.X q i).rot.tr.mulVec (x.data.a_gf (s.par i)).lin, (x.data.a_gf i).ang⟩ ∧
    (pvFwd1 s bp q v i x).data.a = x.data.a := by
  by_cases h : s.par i > 0
  · cases bp <;> simp only [pvFwd1, h, if_true, Bool.false_eq_true, if_false, upd_self, Joint.calcV] <;>
      exact ⟨rfl, trivial⟩
  · cases bp <;> simp only [pvFwd1, h, if_true, Bool.false_eq_true, if_false, upd_self, Joint.calcV] <;>
      exact ⟨rfl, trivial⟩

/-- after the first pass -/
structure PvSet (s : Sys K) (q v tau : ℕ → K) (x : PvData K) : Prop where
  al : ∃ o, AL1 s q v (s.bf q v (fun _ => 0)) tau s.n (pvπ s o x)
  agf : ∀ i, i < s.n → (x.data.a_gf i).lin = (s.oM q i).rot.tr.mulVec (-s.grav).lin
  a0 : x.data.a 0 = -s.grav
  agf0 : x.data.a_gf 0 = -s.grav

theorem pvFwd1_ok (hp : ParOk s.par s.n) {q : ℕ → K} (hq : s.At q) (v tau : ℕ → K) (bp : Bool) {x : PvData K}
    (h0 : x.data.a_gf 0 = -s.grav) (ha : x.data.a 0 = -s.grav) (hu : x.data.u = tau) :
    PvSet s q v tau (fwd (pvFwd1 s bp q v) s.n x) ∧
    fwd (pvFwd1 s bp q v) s.n x = { x with
      data := (fwd (pvFwd1 s bp q v) s.n x).data, bias := (fwd (pvFwd1 s bp q v) s.n x).bias } := by
  have key := fwd_ind (step := pvFwd1 s bp q v) (n := s.n) (d := x)
    (P := fun k (y : PvData K) => pvπ s x.data.oMi y = pvπ s x.data.oMi y ∧
      AL1 s q v (s.bf q v (fun _ => 0)) tau k (pvπ s x.data.oMi y) ∧
      (∀ i, i < k → (y.data.a_gf i).lin = (s.oM q i).rot.tr.mulVec (-s.grav).lin) ∧
      y.data.a = x.data.a ∧ y.data.a_gf 0 = -s.grav ∧ y = { x with data := y.data, bias := y.bias }) hp.1
    ⟨rfl, AL1.zero _ _ _ _ (show upd x.bias 0 (-s.grav) 0 = _ from upd_self ..) hu, fun i hi => by
      obtain rfl : i = 0 := by omega
      rw [h0, s.oM_zero]
      ext <;> simp [M3.tr, M3.mulVec], rfl, h0, rfl⟩ ?_
  · obtain ⟨-, a, b, c, d, e⟩ := key
    exact ⟨⟨⟨_, a⟩, b, by rw [c, ha], d⟩, e⟩
  · rintro i y h1 hi ⟨-, a, b, c, d, e⟩
    have hpi := hp.2 i h1 hi
    obtain ⟨g1, g2⟩ := pvFwd1_agf (s := s) bp q v i y
    refine ⟨rfl, ?_, ?_, by rw [g2, c], by rw [g1, upd_ne _ _ (by omega)]; exact d, ?_⟩
    · rw [pvFwd1_proj _ _ _ _ h1]
      obtain ⟨-, -, -, -, -, -, e7, -⟩ := abaLocalFwd1_proj (v := v) (pvπ s x.data.oMi y) (by omega) (hq.jt i h1 hi)
      refine a.step hp hq h1 hi rfl (fun j hj => by rw [e7, upd_ne _ _ hj]) (fun e => ?_)
      rw [e]; unfold Sys.bf; rw [sub_zero]
    · intro j hj
      rw [g1]
      rcases Nat.eq_or_lt_of_le (Nat.le_of_lt_succ hj) with e | e
      · subst e
        rw [upd_self]
        dsimp only
        rw [b _ (by omega), s.oM_step h1 hpi]
        ext <;> simp [M3.tr, M3.mulVec, V3.dot] <;> ring
      · rw [upd_ne _ _ (by omega)]; exact b j e
    · rw [pvFwd1_keep, e]

/-- what the loop over the contacts adds to row `r` of contact `k` -/
def pvVal [DecidableEq K] (lg : SE3 K → Motion K) (ms : ℕ → RCM K) (ks : ℕ → Corr K) (x : PvData K)
    (cd : ℕ → PvCon K) (k r : ℕ) : K :=
  -((x.KA (ms k).j1 (pvOwn ms k (ms k).j1 + r)).lin.dot (x.data.a_gf (ms k).j1).lin)
    + match (ms k).type with
      | .CONTACT_3D => (⟨((ms k).P1.actInv (x.data.v (ms k).j1)).ang.cross ((ms k).P1.actInv (x.data.v (ms k).j1)).lin
          - (pvFeedback lg (ms k) (ks k) (cd k)).aerr.lin, 0⟩ : Motion K).row r
      | .CONTACT_6D => -((pvFeedback lg (ms k) (ks k) (cd k)).aerr.row r)

theorem pvContact_eq [DecidableEq K] (lg : SE3 K → Motion K) (ms : ℕ → RCM K) (ks : ℕ → Corr K) (x : PvData K) (k : ℕ)
    (y : PvLoop K) : ∃ f : ℕ → K,
    (pvContact lg ms ks x k y).lA = upd y.lA (ms k).j1 (addSeg (y.lA (ms k).j1) (y.cnt (ms k).j1) (ms k).type.dim f) ∧
    (∀ cd : ℕ → PvCon K, y.cd k = cd k → y.cnt = pvOwn ms k → ∀ r < (ms k).type.dim, f r = pvVal lg ms ks x cd k r) ∧
    (pvContact lg ms ks x k y).cnt = upd y.cnt (ms k).j1 (y.cnt (ms k).j1 + (ms k).type.dim) ∧
    (∃ c, (pvContact lg ms ks x k y).cd = upd y.cd k c ∧ c.aerr = (pvFeedback lg (ms k) (ks k) (y.cd k)).aerr) := by
  have hadd : ∀ (z : ℕ → K) (i n : ℕ) (f g : ℕ → K), addSeg (addSeg z i n f) i n g = addSeg z i n (fun r => f r + g r) := by
    intro z i n f g
    funext r
    unfold addSeg
    by_cases h : i ≤ r ∧ r < i + n
    · rw [if_pos h, if_pos h, if_pos h]; ring
    · rw [if_neg h, if_neg h, if_neg h]
  set c := pvFeedback lg (ms k) (ks k) (y.cd k) with hc
  set vc := (ms k).P1.actInv (x.data.v (ms k).j1) with hvc
  set g : ℕ → K := fun r => -((x.KA (ms k).j1 (y.cnt (ms k).j1 + r)).lin.dot (x.data.a_gf (ms k).j1).lin) with hg
  cases ht : (ms k).type with
  | CONTACT_3D =>
    refine ⟨fun r => g r + (⟨vc.ang.cross vc.lin - c.aerr.lin, 0⟩ : Motion K).row r, ?_, ?_, ?_, ⟨{ c with vc1 := vc }, ?_, rfl⟩⟩
    · simp only [pvContact, ht, upd_self, CType.dim, hadd, Function.update_idem]
      rfl
    · intro cd e hn r hr
      simp only [pvVal, ht, ← e, hg, hn, hc, hvc]
    · simp only [pvContact, ht]
    · simp only [pvContact, ht]
      rfl
  | CONTACT_6D =>
    refine ⟨fun r => g r + -(c.aerr.row r), ?_, ?_, ?_, ⟨c, ?_, rfl⟩⟩
    · simp only [pvContact, ht, upd_self, CType.dim, hadd, Function.update_idem]
      rfl
    · intro cd e hn r hr
      simp only [pvVal, ht, ← e, hg, hn, hc]
    · simp only [pvContact, ht]
    · simp only [pvContact, ht]
      rfl

theorem pvContact_ok [DecidableEq K] (lg : SE3 K → Motion K) (ms : ℕ → RCM K) (ks : ℕ → Corr K) (nc : ℕ) (x : PvData K)
    (cd : ℕ → PvCon K) :
    let y := upTo (pvContact lg ms ks x) nc ⟨x.lA, cd, fun _ => 0⟩
    (∀ k < nc, ∀ r < (ms k).type.dim, y.lA (ms k).j1 (pvOwn ms k (ms k).j1 + r)
      = x.lA (ms k).j1 (pvOwn ms k (ms k).j1 + r) + pvVal lg ms ks x cd k r) ∧
    ∀ k < nc, (y.cd k).aerr = (pvFeedback lg (ms k) (ks k) (cd k)).aerr := by
  have key := upTo_ind (step := pvContact lg ms ks x) (n := nc) (d := ⟨x.lA, cd, fun _ => 0⟩)
    (P := fun n (y : PvLoop K) => y.cnt = pvOwn ms n ∧ (∀ k, n ≤ k → y.cd k = cd k) ∧
    (∀ j c, pvOwn ms n j ≤ c → y.lA j c = x.lA j c) ∧
    (∀ k < n, ∀ r < (ms k).type.dim, y.lA (ms k).j1 (pvOwn ms k (ms k).j1 + r)
      = x.lA (ms k).j1 (pvOwn ms k (ms k).j1 + r) + pvVal lg ms ks x cd k r) ∧
    ∀ k < n, (y.cd k).aerr = (pvFeedback lg (ms k) (ks k) (cd k)).aerr)
    ⟨rfl, fun _ _ => rfl, fun _ _ _ => rfl, fun k hk => by omega, fun k hk => by omega⟩ ?_
  · exact ⟨key.2.2.2.1, key.2.2.2.2⟩
  · rintro n y hn ⟨a, b, c, d, e⟩
    obtain ⟨f, f1, f2, f3, ⟨w, f4, f5⟩⟩ := pvContact_eq lg ms ks x n y
    have hv := f2 cd (b n le_rfl) a
    refine ⟨by rw [f3, a, pvOwn_succ], fun k hk => ?_, fun j r hr => ?_, fun k hk r hr => ?_, fun k hk => ?_⟩
    · rw [f4, upd_ne _ _ (by omega)]; exact b k (by omega)
    · have hm := pvOwn_mono ms n j
      rw [f1]
      by_cases hj : j = (ms n).j1
      · subst hj
        rw [pvOwn_succ, upd_self] at hr
        rw [upd_self]
        unfold addSeg
        rw [a, if_neg (by omega)]
        exact c _ _ (by omega)
      · rw [upd_ne _ _ hj]
        exact c _ _ (by omega)
    · rw [f1]
      rcases Nat.eq_or_lt_of_le (Nat.le_of_lt_succ hk) with ee | ee
      · subst ee
        rw [upd_self]
        unfold addSeg
        rw [a, if_pos ⟨by omega, by omega⟩, c _ _ (by omega)]
        congr 1
        rw [Nat.add_sub_cancel_left]
        exact hv r hr
      · by_cases hj : (ms k).j1 = (ms n).j1
        · have hroom := pvOwn_room ms ee
          have hd := d k ee r hr
          rw [hj] at hroom hd ⊢
          rw [upd_self]
          unfold addSeg
          rw [a, if_neg (by omega)]
          exact hd
        · rw [upd_ne _ _ hj]; exact d k ee r hr
    · rw [f4]
      rcases Nat.eq_or_lt_of_le (Nat.le_of_lt_succ hk) with ee | ee
      · subst ee
        rw [upd_self, f5, b k le_rfl]
      · rw [upd_ne _ _ (by omega)]; exact e k ee

/-! ## the backward pass -/

theorem pvBwd_proj {q v : ℕ → K} {i : ℕ} {x : PvData K} (hpi : s.par i ≠ i)
    (hli : x.data.liMi i = s.X q i) (hS : (x.data.joints i).S = s.S q i) (ha : x.bias i = s.bias q v i) :
    locπ (pvBwd s i x).data = absBwd s (locP s q v) i (locπ x.data) := by
  by_cases h : s.par i > 0
  · by_cases hd : x.dim i > 0
    · apply AS.ext' <;>
      simp only [pvBwd, absBwd, locπ, locP, h, hd, if_true, upd_self, upd_ne _ _ hpi, hli, ha, upd_comp, calcAba_U,
        calcAba_StU, calcAba_Dinv, calcAba_UDinv, calcAba_down, hS]
    · apply AS.ext' <;>
      simp only [pvBwd, absBwd, locπ, locP, h, hd, if_true, if_false, upd_self, upd_ne _ _ hpi, hli, ha, upd_comp, calcAba_U,
        calcAba_StU, calcAba_Dinv, calcAba_UDinv, calcAba_down, hS]
  · by_cases hd : x.dim i > 0
    · apply AS.ext' <;>
      simp only [pvBwd, absBwd, locπ, locP, h, hd, if_true, if_false, upd_comp, calcAba_U,
        calcAba_StU, calcAba_Dinv, calcAba_UDinv, calcAba_down, hS]
    · apply AS.ext' <;>
      simp only [pvBwd, absBwd, locπ, locP, h, hd, if_false, upd_comp, calcAba_U,
        calcAba_StU, calcAba_Dinv, calcAba_UDinv, calcAba_down, hS]

theorem pvBwd_keep (i : ℕ) (x : PvData K) :
    (pvBwd s i x).data.liMi = x.data.liMi ∧ (∀ j, ((pvBwd s i x).data.joints j).S = (x.data.joints j).S) ∧
    (pvBwd s i x).bias = x.bias ∧ (pvBwd s i x).dim = x.dim ∧ (pvBwd s i x).pind = x.pind ∧
    (pvBwd s i x).data.a = x.data.a ∧ (pvBwd s i x).data.a_gf = x.data.a_gf ∧
    (pvBwd s i x).lamA = x.lamA := by
  have key : ∀ j, (upd x.data.joints i ((x.data.joints i).calcAba (s.jnv i) (x.data.joints i).S (seg s.arm (s.iv i))
      (x.data.Yaba i)) j).S = (x.data.joints j).S := by
    intro j
    by_cases hj : j = i
    · subst hj; rw [upd_self]; rfl
    · rw [upd_ne _ _ hj]
  unfold pvBwd
  by_cases h : s.par i > 0 <;> by_cases hd : x.dim i > 0 <;> simp only [h, hd, if_true, if_false] <;>
    exact ⟨trivial, key, trivial, trivial, trivial, trivial, trivial, trivial⟩

/-- what a step of the backward pass writes on the constraints -/
theorem pvBwd_con {i : ℕ} (x : PvData K) (hpi : s.par i ≠ i) :
    let y := pvBwd s i x
    let jd := y.data.joints i
    (y.data.u = addSeg x.data.u (s.iv i) (s.jnv i) (fun k => -(StF (x.data.joints i).S (x.data.f i) k))) ∧
    (y.data.joints = upd x.data.joints i
      ((x.data.joints i).calcAba (s.jnv i) (x.data.joints i).S (seg s.arm (s.iv i)) (x.data.Yaba i))) ∧
    (∀ j, j ≠ i → y.KAS j = x.KAS j) ∧ (∀ c < x.dim i, ∀ k, y.KAS i c k = ((x.data.joints i).S k).dot (x.KA i c)) ∧
    (y.KA = upd x.KA (s.par i) (putSeg (x.KA (s.par i)) (x.pind i) (x.dim i) (fun c =>
      (x.data.liMi i).actF (x.KA i c - ∑ k ∈ range (s.jnv i), y.KAS i c k • jd.UDinv k)))) ∧
    (y.LA = upd x.LA (s.par i) (fun r c =>
      if (x.pind i ≤ c ∧ c ≤ r) ∧ r < x.pind i + x.dim i then
        x.LA i (r - x.pind i) (c - x.pind i) + ∑ k ∈ range (s.jnv i), y.KAS i (r - x.pind i) k
          * ∑ l ∈ range (s.jnv i), jd.Dinv k l * y.KAS i (c - x.pind i) l
      else x.LA (s.par i) r c)) ∧
    (y.lA = upd x.lA (s.par i) (putSeg (x.lA (s.par i)) (x.pind i) (x.dim i) (fun c => x.lA i c
      + (comb jd.S (s.jnv i) (fun k => ∑ l ∈ range (s.jnv i), jd.Dinv k l
        * ((jd.S l).dot (-((x.data.Yaba i).mulMF (x.bias i))) + y.data.u (s.iv i + l))) + x.bias i).dot (x.KA i c)))) := by
  have e0 : ¬ x.dim i > 0 → ∀ f : ℕ → K, upd x.lA (s.par i) (putSeg (x.lA (s.par i)) (x.pind i) (x.dim i) f) = x.lA := by
    intro h f
    have : putSeg (x.lA (s.par i)) (x.pind i) (x.dim i) f = x.lA (s.par i) := by
      funext r
      unfold putSeg
      rw [if_neg (by omega)]
    rw [this, upd, Function.update_eq_self]
  have hk : ∀ c < x.dim i, ∀ k, upd x.KAS i (fun c => if c < x.dim i then fun k => ((x.data.joints i).S k).dot (x.KA i c)
      else x.KAS i c) i c k = ((x.data.joints i).S k).dot (x.KA i c) := by
    intro c hc k
    rw [upd_self, if_pos hc]
  unfold pvBwd
  by_cases h : s.par i > 0 <;> by_cases hd : x.dim i > 0 <;>
    simp only [h, hd, if_true, if_false, upd_self, calcAba_S, upd_ne x.KA _ (Ne.symm hpi)]
  · refine ⟨trivial, trivial, fun j hj => upd_ne _ _ hj, fun c hc k => ?_, trivial, trivial, trivial⟩
    rw [if_pos hc]
  · exact ⟨trivial, trivial, fun j hj => trivial, fun c hc k => absurd hc (by omega), trivial, trivial, (e0 hd _).symm⟩
  · refine ⟨trivial, trivial, fun j hj => upd_ne _ _ hj, fun c hc k => ?_, trivial, trivial, trivial⟩
    rw [if_pos hc]
  · exact ⟨trivial, trivial, fun j hj => trivial, fun c hc k => absurd hc (by omega), trivial, trivial, (e0 hd _).symm⟩

end Pin
