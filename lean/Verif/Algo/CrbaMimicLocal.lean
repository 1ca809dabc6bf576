import Verif.Algo.CrbaMimicSteps

/-! # `crba` with mimic joints: local convention -/

set_option linter.unusedSectionVars false

namespace Pin
open Finset
universe u
variable {K : Type u} [Field K] [LinearOrder K] [IsStrictOrderedRing K] [HasEps K] {s : Sys K} {t : MimTab}

theorem own_at {q : ℕ → K} (hq : s.At q) : (s.own t).At q := by
  refine ⟨hq.pl, fun i h1 hi => ?_⟩
  have h := hq.jt i h1 hi
  change (if (t.mim i).isSome then _ else s.jt i : Joint K).Ok (s.qs q i)
  split
  · exact ⟨h.valid, fun w => by simp [comb]⟩
  · exact h

theorem own_lYm (q : ℕ → K) : (s.own t).lYm q = s.lYm q := by
  funext i
  simp only [Sys.lYm, own_oM, own_oYm]

theorem own_Fc (q : ℕ → K) : (s.own t).Fc q = s.Fc q := by
  funext i j l
  simp only [Sys.Fc, own_oM, own_oYm, own_Jc]

/-! ## the backward pass -/

theorem crbaLocalBwd_F (hp : ParOk s.par s.n) {i : ℕ} (h1 : 1 ≤ i) (hi : i < s.n) (d : Data K) {a : ℕ} (ha1 : 1 ≤ a) :
    (crbaLocalBwd s i d).Fcrb a = if a = i then
        putSeg (d.Fcrb i) (s.iv i) (s.jnv i) (fun k => (d.Ycrb i).mul ((d.joints i).S k))
      else if a = s.par i then putSeg (d.Fcrb a) (s.iv i) (s.nvSub i) (fun c => (d.liMi i).actF
        (putSeg (d.Fcrb i) (s.iv i) (s.jnv i) (fun k => (d.Ycrb i).mul ((d.joints i).S k)) (s.iv i + c)))
      else d.Fcrb a := by
  have hpi := hp.2 i h1 hi
  set Fi : ℕ → Force K := putSeg (d.Fcrb i) (s.iv i) (s.jnv i) (fun k => (d.Ycrb i).mul ((d.joints i).S k)) with hFi
  have e0 : upd d.Fcrb i Fi i = Fi := upd_self _ _ _
  unfold crbaLocalBwd
  split
  · show upd (upd d.Fcrb i Fi) (s.par i) (putSeg (upd d.Fcrb i Fi (s.par i)) (s.iv i) (s.nvSub i)
        (fun c => (d.liMi i).actF (upd d.Fcrb i Fi i (s.iv i + c)))) a = _
    rw [e0, upd_ne d.Fcrb Fi (show s.par i ≠ i by omega)]
    by_cases hai : a = i
    · subst hai
      rw [if_pos rfl, upd_ne _ _ (by omega), e0]
    · rw [if_neg hai]
      by_cases hap : a = s.par i
      · subst hap; rw [if_pos rfl, upd_self]
      · rw [if_neg hap, upd_ne _ _ hap, upd_ne _ _ hai]
  · show upd d.Fcrb i Fi a = _
    by_cases hai : a = i
    · subst hai; rw [if_pos rfl, e0]
    · rw [if_neg hai, if_neg (by omega), upd_ne _ _ hai]

/-- the columns of `Fcrb` which the joints from `k` on do not write are zero -/
def FZero (s : Sys K) (k : ℕ) (d : Data K) : Prop :=
  ∀ x, 1 ≤ x → ∀ j l, 1 ≤ j → j < s.n → l < s.jnv j → (∀ y, k ≤ y → y < s.n → (y = x ∨ s.par y = x) → ¬ anc s.par y j) →
    d.Fcrb x (s.iv j + l) = 0

theorem fzero_step (h : s.Packed) (hc : Compact s.par s.n) {i : ℕ} (h1 : 1 ≤ i) (hi : i < s.n) {d : Data K}
    (hz : FZero s (i + 1) d) : FZero s i (crbaLocalBwd s i d) := by
  intro x hx j l j1 hj hl hy
  have base : d.Fcrb x (s.iv j + l) = 0 := hz x hx j l j1 hj hl fun y a b c => hy y (by omega) b c
  rw [crbaLocalBwd_F h.par h1 hi d hx]
  split
  · rename_i e
    subst e
    have hji : j ≠ x := by
      rintro rfl; exact hy j le_rfl hj (Or.inl rfl) (anc_refl h.par hj)
    rw [h.putSeg_ne _ _ h1 hi j1 hj hl hji]
    exact base
  · split
    · rename_i e
      rw [putSeg_out]
      · exact base
      · intro hcol
        exact hy i le_rfl hi (Or.inr e.symm) ((h.nvSub_iff hc h1 hi j1 hj hl).1 hcol)
    · exact base

/-- the backward step on a model with mimic joints is the one on the model where they have no degree of freedom -/
theorem crbaLocalBwdM_sim (ht : t.Ok s) (hs : t.Simple s) {i : ℕ} (h1 : 1 ≤ i) (hi : i < s.n) {d : Data K}
    (hz : FZero (s.own t) (i + 1) d) : crbaLocalBwdM s t i d = crbaLocalBwd (s.own t) i d := by
  have hP := own_packed ht
  have hc0 := compact_of ht
  have hc : Compact (s.own t).par (s.own t).n := hc0
  have hp := ht.ext.par
  have hpi : s.par i < i := hp.2 i h1 hi
  by_cases hm : (t.mim i).isSome
  · have e : (s.own t).jnv i = 0 := by rw [own_jnv, if_pos hm]
    have e1 : ∀ (x y : ℕ → Force K) (a : ℕ), putSeg x a 0 y = x := fun x y a => by
      funext r; exact putSeg_out _ _ (by omega)
    have e2 : ∀ (A B : ℕ → ℕ → K) (a b n : ℕ), putBlock A a b 0 n B = A := fun A B a b n => by
      funext r c; unfold putBlock; rw [if_neg (by omega)]
    have e3 : upd d.Fcrb i (d.Fcrb i) = d.Fcrb := by funext a; unfold upd; simp
    unfold crbaLocalBwdM crbaLocalBwd
    rw [if_pos hm]
    simp only [e, e1, e2, e3]
    rw [show (s.own t).par = s.par from rfl]
    split
    · rename_i hp0
      congr 2
      funext c
      by_cases hcn : c < s.nv
      · rw [if_pos hcn]
        obtain ⟨j, l, j1, hj, hl, rfl⟩ := hP.cover (show c < (s.own t).nv from hcn)
        by_cases ha : anc s.par i j
        · have hcol := (hP.nvSub_iff hc h1 hi j1 hj hl).2 ha
          rw [putSeg_in _ _ hcol]
          rw [show (s.own t).iv i + ((s.own t).iv j + l - (s.own t).iv i) = (s.own t).iv j + l by omega,
            hz (s.par i) (by omega) j l j1 hj hl, zero_add]
          rintro y hy hyn (rfl | e) hya
          · omega
          · have := kids_disjoint hp (i := s.par i) (show s.par i < s.n by omega) (mem_kids.2 ⟨⟨h1, hi⟩, rfl⟩)
              (mem_kids.2 ⟨⟨by omega, hyn⟩, e⟩) hj ha hya
            omega
        · rw [putSeg_out _ _ (fun hcol => ha ((hP.nvSub_iff hc h1 hi j1 hj hl).1 hcol)), hz i h1 j l j1 hj hl,
            SE3.actF_zero, add_zero]
          rintro y hy hyn (rfl | e) hya
          · omega
          · have hyi : anc s.par i y := kid_anc hp hi (mem_kids.2 ⟨⟨by omega, hyn⟩, e⟩)
            exact ha (anc_trans hp hyi j hj hya)
      · rw [if_neg hcn, putSeg_out]
        have : (s.own t).iv i + (s.own t).nvSub i ≤ s.nv := by
          rw [own_nvSub ht h1 hi, ht.nv, ← sum_Ico_consecutive _ h1 hi.le]
          refine Nat.add_le_add_left (sum_le_sum_of_subset fun j hj => ?_) _
          obtain ⟨hjn, hja⟩ := mem_subtree.1 hj
          exact mem_Ico.2 ⟨anc_le hp j hjn.2 hja, hjn.2⟩
        omega
    · rfl
  · have hn : t.mim i = none := by simpa using hm
    have e : (s.own t).jnv i = s.jnv i := by rw [own_jnv, if_neg hm]
    have e2 : (s.own t).nvSub i = (t.nvSub i).toNat := by
      rw [own_nvSub ht h1 hi, hs.sub i h1 hi hn, Int.toNat_natCast]
    have e3 := own_iv ht h1 hi hn
    unfold crbaLocalBwdM crbaLocalBwd
    rw [if_neg hm]
    simp only [e, e2, e3]
    rfl

theorem crbaLocalFwd_F (hp : ParOk s.par s.n) (q : ℕ → K) (d : Data K) : (fwd (crbaLocalFwd s q) s.n d).Fcrb = d.Fcrb :=
  fwd_ind (P := fun _ (d' : Data K) => d'.Fcrb = d.Fcrb) hp.1 rfl (fun _ _ _ _ ih => ih)

/-- state before the mimic steps -/
theorem crbaLocalM_bwd (ht : t.Ok s) (hs : t.Simple s) (hm : s.MassesOk) (d : Data K)
    (hF : ∀ x, 1 ≤ x → ∀ c, c < s.nv → d.Fcrb x c = 0) {q : ℕ → K} (hq : s.At q) :
    CLB (s.own t) q d.M 1 (bwd (crbaLocalBwdM s t) s.n (fwd (crbaLocalFwd s q) s.n d)) := by
  have hP := own_packed ht
  have hc0 := compact_of ht
  have hc : Compact (s.own t).par (s.own t).n := hc0
  have hp : ParOk s.par s.n := ht.ext.par
  obtain ⟨hd, hM⟩ := crbaLocalFwd_ok hp q d
  have hFf := crbaLocalFwd_F hp q d
  rw [← hM]
  generalize fwd (crbaLocalFwd s q) s.n d = d1 at *
  refine (bwd_ind (P := fun k (d' : Data K) => CLB (s.own t) q d1.M k d' ∧ FZero (s.own t) k d') hp.1 ?_ ?_).1
  · refine ⟨⟨?_, ?_, ?_, ?_, fun i _ h' hi => by change i < s.n at hi; omega, fun i _ _ k' _ j _ _ _ l _ => rfl⟩, ?_⟩
    · intro i h1 hi
      rw [own_X, own_S]
      exact hd.li i h1 hi
    · intro i h1 hi; rw [hd.Y i h1 hi]; exact hm i h1 hi
    · intro i h1 hi
      rw [filter_eq_empty_iff.2, sum_empty, add_zero]
      · show (d1.Ycrb i).matrix = _
        rw [hd.Y i h1 hi]; rfl
      · intro c hc'
        have := (mem_kids.1 hc').1.2
        change c < s.n at this
        omega
    · rintro i h1 hi j hj (⟨h', -⟩ | ⟨c, hck, h', -⟩)
      · change i < s.n at hi; omega
      · have := (mem_kids.1 hck).1.2
        change c < s.n at this
        omega
    · intro x hx j l j1 hj hl _
      rw [hFf]
      exact hF x hx _ (by have := hP.le_nv j1 hj; change _ ≤ s.nv at this; omega)
  · intro i d' h1 hi ih
    rw [crbaLocalBwdM_sim ht hs h1 hi ih.2]
    exact ⟨crbaLocalBwd_step hP hc (own_at hq) h1 hi ih.1, fzero_step hP hc h1 hi ih.2⟩

/-! ## the steps of the mimic joints -/

theorem addBlock_congr {A : ℕ → ℕ → K} {i j m n : ℕ} {B B' : ℕ → ℕ → K} (h : ∀ a < m, ∀ b < n, B a b = B' a b) :
    addBlock A i j m n B = addBlock A i j m n B' := by
  funext r c
  unfold addBlock
  split
  · rename_i hh
    rw [h _ (by omega) _ (by omega)]
  · rfl

/-- a list of joints, each the parent of the one before, starting from the parent of `c` -/
def UpFrom (par : ℕ → ℕ) : ℕ → List ℕ → Prop
  | _, [] => True
  | c, p :: L => p = par c ∧ 1 ≤ p ∧ UpFrom par p L

theorem upFrom_append {par : ℕ → ℕ} : ∀ {L1 L2 : List ℕ} {c : ℕ}, UpFrom par c (L1 ++ L2) →
    UpFrom par c L1 ∧ UpFrom par (L1.getLastD c) L2 := by
  intro L1
  induction L1 with
  | nil => intro L2 c h; exact ⟨trivial, h⟩
  | cons p L ih =>
    rintro L2 c ⟨a, b, h⟩
    obtain ⟨h1, h2⟩ := ih h
    refine ⟨⟨a, b, h1⟩, ?_⟩
    rw [List.getLastD_cons]
    exact h2

theorem upFrom_path {par : ℕ → ℕ} {n : ℕ} (hp : ParOk par n) : ∀ j c, j < n → j = par c → UpFrom par c (path par j).reverse := by
  intro j
  induction j using Nat.strong_induction_on with
  | _ j ih =>
    intro c hj e
    rcases Nat.eq_zero_or_pos j with rfl | h1
    · rw [path_zero]; trivial
    · have hpj := hp.2 j h1 hj
      rw [path_step h1 hpj, List.reverse_append]
      exact ⟨e, h1, ih (par j) hpj j (by omega) rfl⟩

section step
variable (ht : t.Ok s) (hs : t.Simple s) {m p0 : ℕ} (m1 : 1 ≤ m) (mn : m < s.n) (hm : t.mim m = some p0)
include ht hs m1 mn hm

/-- the two loops visit the supports of the mimic joint, from its parent up -/
theorem up_chain : UpFrom s.par m (t.up1 s m ++ t.up2 s m) := by
  have hp : ParOk s.par s.n := ht.ext.par
  have hpm : s.par m < m := hp.2 m m1 mn
  obtain ⟨R, -, -, hup, e1, -⟩ := up_lists ht hs m1 mn hm
  have hup' : t.up m = (path s.par (s.par m)).reverse ++ [0] := by
    unfold MimTab.up
    rw [ht.sup m mn, sup_step hp m1 mn, List.dropLast_concat]
    unfold Sys.sup
    rw [List.reverse_cons]
  have hR : R = (path s.par (s.par m)).reverse := List.append_cancel_right (hup.symm.trans hup')
  have hne : (t.up m).dropWhile (fun p => decide (s.iv m ≤ s.iv p)) ≠ [] := by
    intro h
    have h2 := List.takeWhile_append_dropWhile (p := fun p => decide (s.iv m ≤ s.iv p)) (l := t.up m)
    rw [h, List.append_nil] at h2
    have h3 : (t.up1 s m).length = R.length + 1 := by
      unfold MimTab.up1
      rw [h2, hup]; simp
    rw [e1] at h3
    have := List.length_filter_le (fun p => decide (s.iv m ≤ s.iv p)) R
    omega
  have e : t.up1 s m ++ t.up2 s m = R := by
    unfold MimTab.up1 MimTab.up2
    rw [← List.dropLast_append_of_ne_nil hne, List.takeWhile_append_dropWhile, hup, List.dropLast_concat]
  rw [e, hR]
  exact upFrom_path hp _ _ (by omega) rfl

end step

/-- what a local mimic step reads -/
structure LRead (s : Sys K) (t : MimTab) (q : ℕ → K) (m : ℕ) (d : Data K) : Prop where
  li : ∀ i, 1 ≤ i → i < s.n → d.liMi i = s.X q i ∧ (d.joints i).S = s.S q i
  Y : (d.Ycrb m).matrix = s.lYm q m
  F : ∀ j, j < s.n → anc s.par m j → t.mim j = none → ∀ l, l < s.jnv j → d.Fcrb m (s.iv j + l) = s.Fc q m j l

theorem localUp_inv (hp : ParOk s.par s.n) {q : ℕ → K} (hq : s.At q) {m : ℕ} {d : Data K} (hd : LRead s t q m d)
    {c p : ℕ} (c1 : 1 ≤ c) (cn : c < s.n) (hpc : p = s.par c) (w : Force K) :
    (d.liMi c).actF ((s.oM q c).actInvF w) = (s.oM q p).actInvF w := by
  subst hpc
  have hpi := hp.2 c c1 cn
  rw [(hd.li c c1 cn).1, s.oM_step c1 hpi, SE3.mul_actInvF (s.oM_valid hp hq _ (by omega)) (s.X_valid hq c1 cn),
    SE3.actF_actInvF (s.X_valid hq c1 cn)]

theorem localS_dot {q : ℕ → K} {m : ℕ} {d : Data K} (hd : LRead s t q m d) {p : ℕ} (p1 : 1 ≤ p) (pn : p < s.n) (a : ℕ) (w : Force K) :
    ((d.joints p).S a).dot ((s.oM q p).actInvF w) = (s.Jc q p a).dot w := by
  rw [(hd.li p p1 pn).2, ← SE3.dot_act]; rfl

/-- a loop over supports gives the same matrix in both conventions -/
theorem localLoop (hp : ParOk s.par s.n) {q : ℕ → K} (hq : s.At q) {m : ℕ} {d : Data K} (hd : LRead s t q m d)
    {fl : LUp K → ℕ → LUp K} {fw : (ℕ → ℕ → K) → ℕ → ℕ → ℕ → K} {w : ℕ → Force K}
    (hF : ∀ u p, (fl u p).F = fun b => (d.liMi u.child).actF (u.F b)) (hch : ∀ u p, (fl u p).child = p)
    {Pm : ℕ → Prop} (hM : ∀ u p, Pm p → (∀ b < s.jnv m, (fl u p).F b = (s.oM q p).actInvF (w b)) → (fl u p).M = fw u.M p) : ∀ (L : List ℕ) (u : LUp K), 1 ≤ u.child → u.child < s.n → UpFrom s.par u.child L → (∀ p ∈ L, Pm p) →
      (∀ b < s.jnv m, u.F b = (s.oM q u.child).actInvF (w b)) →
      (L.foldl fl u).M = L.foldl fw u.M ∧ (L.foldl fl u).child = L.getLastD u.child ∧
      (1 ≤ (L.foldl fl u).child ∧ (L.foldl fl u).child < s.n) ∧
      (∀ b < s.jnv m, (L.foldl fl u).F b = (s.oM q (L.foldl fl u).child).actInvF (w b)) := by
  intro L
  induction L with
  | nil => intro u c1 cn _ _ hu; exact ⟨rfl, rfl, ⟨c1, cn⟩, hu⟩
  | cons p L ih =>
    rintro u c1 cn ⟨e, p1, hL⟩ hmem hu
    have hpn : p < s.n := by have := hp.2 _ c1 cn; omega
    have hF' : ∀ b < s.jnv m, (fl u p).F b = (s.oM q p).actInvF (w b) := by
      intro b hb
      rw [hF]
      beta_reduce
      rw [hu b hb]
      exact localUp_inv hp hq hd c1 cn e _
    have h1 := hM u p (hmem p (by simp)) hF'
    obtain ⟨a, b, c, g⟩ := ih (fl u p) (by rw [hch]; exact p1) (by rw [hch]; exact hpn) (by rw [hch]; exact hL)
      (fun x hx => hmem x (by simp [hx])) (by rw [hch]; exact hF')
    rw [List.foldl_cons, List.foldl_cons, List.getLastD_cons]
    refine ⟨by rw [a, h1], by rw [b, hch], c, g⟩

/-- a mimic step gives the same matrix in both conventions -/
theorem localStep_M (ht : t.Ok s) (hs : t.Simple s) {q : ℕ → K} (hq : s.At q) {x : ℕ × ℕ} (hx : x ∈ t.mims) {d dw : Data K}
    (hd : LRead s t q x.1 d) (hw : MRead s t q x.1 dw) (hM : dw.M = d.M) :
    (crbaLocalMimicStep s t d x).M = (crbaWorldMimicStep s t dw x).M := by
  obtain ⟨m, sub⟩ := x
  have hmm : m ∈ t.mims.map (·.1) := List.mem_map_of_mem (f := Prod.fst) hx
  obtain ⟨⟨m1, mn⟩, hsome⟩ := (ht.mem m).1 hmm
  obtain ⟨p0, hm⟩ := Option.isSome_iff_exists.1 hsome
  obtain ⟨⟨p1, pm⟩, hpn, hivm, hjm, hjp⟩ := ht.mim m p0 m1 mn hm
  have hp : ParOk s.par s.n := ht.ext.par
  have hP := own_packed ht
  have hc0 := compact_of ht
  have hc : Compact (s.own t).par (s.own t).n := hc0
  obtain ⟨R, hRn, hRm, hup, e1, e2⟩ := up_lists ht hs m1 mn hm
  have hjm : s.jnv m = 1 := hjm
  dsimp only at hd hw
  -- the force of the mimic joint
  set w : ℕ → Force K := fun b => (s.oYm q m).mulMF (s.Jc q m b) with hwdef
  have hwA : ∀ b < s.jnv m, (dw.oYcrb m).mul (dw.J (t.ivx m + b)) = w b := by
    intro b hb
    rw [← Inertia.matrix_mulMF, hw.Y m mn, hw.J m m1 mn b hb]
  have hF0 : ∀ b, (d.Ycrb m).mul ((d.joints m).S b) = (s.oM q m).actInvF (w b) := by
    intro b
    rw [← Inertia.matrix_mulMF, hd.Y, Sys.lYm_mul hp hq mn, (hd.li m m1 mn).2]
    rfl
  set F := putSeg (d.Fcrb m) (s.iv m) (s.jnv m) (fun k => (d.Ycrb m).mul ((d.joints m).S k)) with hF
  have hFm : ∀ b < s.jnv m, F (s.iv m + b) = (s.oM q m).actInvF (w b) := by
    intro b hb
    rw [hF, putSeg_at _ _ hb, hF0]
  -- first block
  have E0 : ∀ A : ℕ → ℕ → K, addBlock A (s.iv m) (s.iv m) (s.jnv m) (s.jnv m) (fun a b => ((d.joints m).S a).dot (F (s.iv m + b)))
      = addBlock A (s.iv m) (s.iv m) (s.jnv m) (s.jnv m)
        (fun a b => (dw.J (t.ivx m + a)).dot ((dw.oYcrb m).mul (dw.J (t.ivx m + b)))) := by
    intro A
    apply addBlock_congr
    intro a ha b hb
    rw [hFm b hb, localS_dot hd m1 mn, hwA b hb, hw.J m m1 mn a ha]
  -- second block
  have E1 : ∀ A : ℕ → ℕ → K, (if sub ≠ 0 then addBlock A (s.iv m) (s.iv sub) (s.jnv m) (t.nvSub sub).toNat
        (fun a b => ((d.joints m).S a).dot (F (s.iv sub + b))) else A)
      = (if sub ≠ 0 then addBlock A (s.iv m) (s.iv sub) (s.jnv m) (t.nvSub sub).toNat
        (fun a b => (dw.J (t.ivx m + a)).dot (dw.Ag (s.iv sub + b))) else A) := by
    intro A
    rcases hs.branch (m, sub) hx with ⟨h0, -⟩ | ⟨hlt, hsn, hsa, -⟩
    · dsimp only at h0
      rw [if_neg (by simpa using h0), if_neg (by simpa using h0)]
    · dsimp only at hlt hsn hsa
      have hsn' := desc_plain ht hs m1 mn hm hsn hsa (by omega)
      rw [if_pos (by omega), if_pos (by omega)]
      apply addBlock_congr
      intro a ha b hb
      have hnv : (t.nvSub sub).toNat = (s.own t).nvSub sub := by
        rw [own_nvSub ht (by omega) hsn, hs.sub sub (by omega) hsn hsn', Int.toNat_natCast]
      have hlt' : (s.own t).iv sub + (s.own t).nvSub sub ≤ s.nv := by
        rw [own_nvSub ht (by omega) hsn, ht.nv, ← sum_Ico_consecutive _ (show 1 ≤ sub by omega) hsn.le]
        refine Nat.add_le_add_left (sum_le_sum_of_subset fun j hj => ?_) _
        obtain ⟨hjn, hja⟩ := mem_subtree.1 hj
        exact mem_Ico.2 ⟨anc_le hp j hjn.2 hja, hjn.2⟩
      obtain ⟨j, l, j1, hj, hl, e⟩ := hP.cover (show (s.own t).iv sub + b < (s.own t).nv by change _ < s.nv; omega)
      have hja : anc s.par sub j := (hP.nvSub_iff hc (show 1 ≤ sub by omega) hsn j1 hj hl).1 (by omega)
      have hjn : t.mim j = none := by
        rw [own_jnv] at hl
        cases h : t.mim j with
        | none => rfl
        | some p => simp [h] at hl
      rw [own_jnv, if_neg (by simp [hjn])] at hl
      rw [own_iv ht (by omega) hsn hsn', own_iv ht j1 hj hjn] at e
      have hmj : anc s.par m j := anc_trans hp hsa j hj hja
      have hmle := anc_le hp j hj hmj
      have hFc : F (s.iv sub + b) = s.Fc q m j l := by
        rw [e, hF, putSeg_out]
        · exact hd.F j hj hmj hjn l hl
        · rw [hjm]
          intro hh
          have := (hP.inj j1 hj p1 (show p0 < s.n by omega) (k := l) (l := 0)
            (by rw [own_jnv, if_neg (by simp [hjn])]; exact hl) (by rw [own_jnv, if_neg (by simp [hpn])]; omega)
            (by rw [own_iv ht j1 hj hjn, own_iv ht p1 (by omega) hpn]; omega)).1
          omega
      rw [hFc, e, hw.Ag j hmle hj hjn l hl, hw.J m m1 mn a ha]
      exact localS_dot hd m1 mn a _
  -- the loops
  obtain ⟨hc1, hc2⟩ := upFrom_append (up_chain ht hs m1 mn hm)
  have hup1 : ∀ p ∈ t.up1 s m, 1 ≤ p ∧ p < s.n ∧ s.jnv p = 1 ∧ t.nvs p = 1 := by
    intro p hpU
    rw [e1, List.mem_filter] at hpU
    obtain ⟨hpR, hpv⟩ := hpU
    obtain ⟨q1, qm, qa⟩ := (hRm p).1 hpR
    simp only [decide_eq_true_eq] at hpv
    have qle := anc_le hp m mn qa
    have qn := anc_plain ht hs m1 mn hm q1 qa qm
    have q1' : s.jnv p = 1 := hs.single m p0 p m1 mn hm q1 qa qn (by omega)
    exact ⟨q1, by omega, q1', by rw [ht.nvs p q1 (by omega), if_neg (by simp [qn]), q1']⟩
  have hup2 : ∀ p ∈ t.up2 s m, 1 ≤ p ∧ p < s.n ∧ t.nvs p = s.jnv p := by
    intro p hpU
    rw [e2, List.mem_filter] at hpU
    obtain ⟨q1, qm, qa⟩ := (hRm p).1 hpU.1
    have qle := anc_le hp m mn qa
    have qn := anc_plain ht hs m1 mn hm q1 qa qm
    exact ⟨q1, by omega, by rw [ht.nvs p q1 (by omega), if_neg (by simp [qn])]⟩
  obtain ⟨f1, f2, ⟨f3, f4⟩, f5⟩ := localLoop hp hq hd (fl := crbaLocalUp1 s t m d)
    (fw := crbaWorldUp1 s t m dw.J (fun k => (dw.oYcrb m).mul (dw.J (t.ivx m + k)))) (w := w) (fun _ _ => rfl) (fun _ _ => rfl)
    (Pm := fun p => p ∈ t.up1 s m) (by
      intro u p hpU hu
      obtain ⟨q1, qn, hj1, hn1⟩ := hup1 p hpU
      have hcg : ∀ A : ℕ → ℕ → K, addBlock A (s.iv m) (s.iv p) (s.jnv m) (t.nvs p)
          (fun a b => ((d.joints p).S a).dot ((d.liMi u.child).actF (u.F b)))
          = addBlock A (s.iv m) (s.iv p) (s.jnv m) (t.nvs p)
          (fun a b => (dw.J (t.ivx p + a)).dot ((dw.oYcrb m).mul (dw.J (t.ivx m + b)))) := by
        intro A
        apply addBlock_congr
        intro a ha b hb
        have hub : (d.liMi u.child).actF (u.F b) = (s.oM q p).actInvF (w b) := hu b (by omega)
        rw [hub, localS_dot hd q1 qn, hwA b (by omega), hw.J p q1 qn a (by omega)]
      unfold crbaLocalUp1 crbaWorldUp1
      dsimp only
      split <;> simp only [hcg])
    (t.up1 s m) ⟨_, fun b => F (s.iv m + b), m⟩ m1 mn hc1 (fun p h => h) hFm
  rw [← f2] at hc2
  obtain ⟨g1, -, -, -⟩ := localLoop hp hq hd (fl := crbaLocalUp2 s t m d)
    (fw := crbaWorldUp2 s t m dw.J (fun k => (dw.oYcrb m).mul (dw.J (t.ivx m + k)))) (w := w) (fun _ _ => rfl) (fun _ _ => rfl)
    (Pm := fun p => p ∈ t.up2 s m) (by
      intro u p hpU hu
      obtain ⟨q1, qn, hn1⟩ := hup2 p hpU
      unfold crbaLocalUp2 crbaWorldUp2
      dsimp only
      apply addBlock_congr
      intro a ha b hb
      have hub : (d.liMi u.child).actF (u.F b) = (s.oM q p).actInvF (w b) := hu b hb
      rw [hub, localS_dot hd q1 qn, hwA b hb, hw.J p q1 qn a (by omega)])
    (t.up2 s m) _ f3 f4 hc2 (fun p h => h) f5
  unfold crbaLocalMimicStep crbaWorldMimicStep
  dsimp only
  rw [← hF, g1, f1, E1, E0, hM]

/-- a mimic step does not change what the steps of the other mimic joints read -/
theorem localStep_read {q : ℕ → K} {x : ℕ × ℕ} {d : Data K} {m : ℕ} (hne : m ≠ x.1) (hd : LRead s t q m d) :
    LRead s t q m (crbaLocalMimicStep s t d x) := by
  refine ⟨hd.li, hd.Y, fun j hj ha hn l hl => ?_⟩
  change upd d.Fcrb x.1 _ m _ = _
  rw [upd_ne _ _ hne]
  exact hd.F j hj ha hn l hl

theorem localFold (ht : t.Ok s) (hs : t.Simple s) {q : ℕ → K} (hq : s.At q) {dw : Data K} (hw : ∀ x ∈ t.mims, MRead s t q x.1 dw) :
    ∀ {L : List (ℕ × ℕ)}, (∀ x ∈ L, x ∈ t.mims) → (L.map (·.1)).Pairwise (· < ·) → ∀ {d : Data K}, (∀ x ∈ L, LRead s t q x.1 d) →
    ∀ i k j l, 1 ≤ i → i < s.n → t.mim i = none → k < s.jnv i → 1 ≤ j → j < s.n → t.mim j = none → l < s.jnv j →
      s.iv i + k ≤ s.iv j + l → (L.foldl (crbaLocalMimicStep s t) d).M (s.iv i + k) (s.iv j + l)
        = d.M (s.iv i + k) (s.iv j + l) + ((L.map (·.1)).map (mimTerm s t q i k j l)).sum := by
  intro L
  induction L with
  | nil => intro _ _ d _ i k j l _ _ _ _ _ _ _ _ _; simp
  | cons x L ih =>
    intro hL hp d hd i k j l i1 hi hni hk j1 hj hnj hl hrc
    rw [List.map_cons, List.pairwise_cons] at hp
    have hx := hL x (by simp)
    have hdw : MRead s t q x.1 { dw with M := d.M } := ⟨(hw x hx).J, (hw x hx).Y, (hw x hx).Ag⟩
    rw [List.foldl_cons, ih (fun y hy => hL y (by simp [hy])) hp.2 (d := crbaLocalMimicStep s t d x) (fun y hy =>
        localStep_read (by have := hp.1 y.1 (List.mem_map_of_mem (f := Prod.fst) hy); omega) (hd y (by simp [hy])))
        i k j l i1 hi hni hk j1 hj hnj hl hrc,
      localStep_M ht hs hq hx (hd x (by simp)) hdw rfl, mimicStep_M ht hs hq hx hdw i1 hi hni hk j1 hj hnj hl hrc,
      List.map_cons, List.map_cons, List.sum_cons, add_assoc]

end Pin
