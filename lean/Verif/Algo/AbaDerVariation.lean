import Verif.Algo.AbaDerLemmas
import Verif.Props.RneaDerivatives
import Verif.Spec.FwdDer

/-! # The matrices of `computeABADerivatives` as derivatives of the forward dynamics -/

namespace Pin
open Finset DualNumber TrivSqZeroExt
universe u

section
variable {K : Type u} [CommRing K] {s : Sys K}

/-- the inverse dynamics depends on the acceleration through its `nv` entries -/
theorem rneaFext_congr (hw : s.WF) (d d' : Data K) {q : ℕ → K} (hq : s.At q) (v : ℕ → K) {a b : ℕ → K}
    (fext : ℕ → Force K) (hab : ∀ r < s.nv, a r = b r) {r : ℕ} (hr : r < s.nv) :
    (rneaFext s d q v a fext).tau r = (rneaFext s d' q v b fext).tau r := by
  rw [C15_fext hw d d hq v a fext hr, C15_fext hw d' d hq v b fext hr]
  congr 1
  have e1 := C12_affine hw d d hq v a (Sys.unit r)
  have e2 := C12_affine hw d d hq v b (Sys.unit r)
  rw [Sys.massForm_congr_right hw hab] at e1
  rw [Sys.dotv_unit hr] at e1 e2
  rw [e1, e2]
end

variable {K : Type u} [Field K] [LinearOrder K] [IsStrictOrderedRing K] [HasEps K] {s : Sys K} {sε : Sys K[ε]}
  {q w dq : ℕ → K}

/-- the torque before it moves -/
theorem Sys.tau_fst (h : s.Along sε q w dq) (hc : s.ConstS sε) (hk : s.Packed) (hq : s.At q)
    (hqε : sε.At (perturb q dq)) (dε : Data K[ε]) (d : Data K) (v δv a δa : ℕ → K) (fext : ℕ → Force K) {r : ℕ}
    (hr : r < s.nv) :
    ((rneaFext sε dε (perturb q dq) (perturb v δv) (perturb a δa) (fun i => (fext i).map inl)).tau r).fst
      = (rneaFext s d q v a fext).tau r := by
  have hp := hk.par
  have e := rneaFext_power (h.wfε hk) dε hqε (perturb v δv) (perturb a δa) (fun i => (fext i).map inl) (Sys.unit r)
  have e' := rneaFext_power hk.wf d hq v a fext (Sys.unit r)
  rw [Sys.dotv_unit (s := sε) (by rw [h.nv]; exact hr), Sys.dotv_unit (s := sε) (by rw [h.nv]; exact hr)] at e
  rw [Sys.dotv_unit hr, Sys.dotv_unit hr] at e'
  rw [e, e', TrivSqZeroExt.fst_add, h.n]
  have fs : ∀ (t : Finset ℕ) (g : ℕ → K[ε]), (∑ i ∈ t, g i).fst = ∑ i ∈ t, (g i).fst := by
    intro t g
    classical
    induction t using Finset.induction_on with
    | empty => simp
    | insert x t hx ih => rw [sum_insert hx, sum_insert hx, TrivSqZeroExt.fst_add, ih]
  rw [fs]
  congr 1
  · apply sum_congr rfl
    intro b hb
    obtain ⟨-, hb⟩ := mem_Ico.1 hb
    have hg : (-sε.grav : Motion K[ε]) = (-s.grav).map inl := by
      rw [h.grav]; ext <;> simp [Motion.map, V3.map]
    have fd : ∀ (m : Motion K[ε]) (f : Force K[ε]), (m.dot f).fst = (m.map fst).dot (f.map fst) := by
      intro m f; simp [Motion.dot, V3.dot, Motion.map, Force.map, V3.map]
    rw [hg, fd, Sys.unit_perturb, Sys.V_fst h hp hq _ _ b hb, Force.fst_sub, Force.fst_inl,
      Sys.F_fst h hc hp hq _ _ _ _ _ b hb]
  · rw [h.arm]; simp [perturb]

omit [Field K] [LinearOrder K] [IsStrictOrderedRing K] [HasEps K] in
theorem mirrorUpper_eq (nv : ℕ) (M : ℕ → ℕ → K) {r c : ℕ} (hr : r < nv) : mirrorUpper nv M r c = symUpper M r c := by
  unfold mirrorUpper symUpper
  by_cases e : c < r
  · rw [if_pos ⟨e, hr⟩, if_neg (by omega)]
  · rw [if_neg (fun x => e x.1), if_pos (by omega)]

omit [LinearOrder K] [IsStrictOrderedRing K] [HasEps K] in
theorem negMul_apply (n : ℕ) (P A : ℕ → ℕ → K) (x : ℕ → K) (r : ℕ) :
    ∑ c ∈ range n, negMul n P A r c * x c = -∑ c ∈ range n, P r c * ∑ k ∈ range n, A c k * x k := by
  unfold negMul
  rw [← sum_neg_distrib, sum_congr rfl (fun c _ => by rw [neg_mul, sum_mul]), sum_neg_distrib, sum_comm,
    ← sum_neg_distrib]
  refine sum_congr rfl fun c _ => ?_
  rw [mul_sum]
  congr 1
  exact sum_congr rfl fun k _ => by ring

omit [LinearOrder K] [IsStrictOrderedRing K] [HasEps K] in
theorem InverseOf.solve {n : ℕ} {A B : ℕ → ℕ → K} (hI : InverseOf n A B) (x y : ℕ → K) :
    (∀ r < n, ∑ c ∈ range n, A r c * x c = y r) ↔ ∀ r < n, x r = ∑ c ∈ range n, B r c * y c := by
  constructor
  · intro hx r hr
    rw [sum_congr rfl (fun c hc => by rw [← hx c (mem_range.1 hc), mul_sum]), sum_comm]
    rw [sum_congr rfl (fun k hk => show _ = (if r = k then 1 else 0) * x k by
      rw [← (hI r hr k (mem_range.1 hk)).2, sum_mul]; exact sum_congr rfl fun c _ => by ring)]
    simp [hr]
  · intro hx r hr
    rw [sum_congr rfl (fun c hc => by rw [hx c (mem_range.1 hc), mul_sum]), sum_comm]
    rw [sum_congr rfl (fun k hk => show _ = (if r = k then 1 else 0) * y k by
      rw [← (hI r hr k (mem_range.1 hk)).1, sum_mul]; exact sum_congr rfl fun c _ => by ring)]
    simp [hr]

/-- variation of the torque, with the matrices -/
theorem tau_var_rows (h : s.Packed) (hal : s.Along sε q w dq) (hc : s.ConstS sε) (hq : s.At q)
    (hqε : sε.At (perturb q dq)) (dε : Data K[ε]) (v δv a δa : ℕ → K) (fext : ℕ → Force K) {Q V Q0 V0 : ℕ → ℕ → K}
    (hQ : RowC s (s.eQ q v a fext) Q0 1 Q) (hV : RowC s (s.eD q v) V0 1 V) (zQ : s.BranchZero Q0)
    (zV : s.BranchZero V0) {r : ℕ} (hr : r < s.nv) :
    ((rneaFext sε dε (perturb q dq) (perturb v δv) (perturb a δa) (fun i => (fext i).map inl)).tau r).snd
      = (∑ c ∈ range s.nv, (Q r c * w c + V r c * δv c))
        + ∑ c ∈ range s.nv, s.massForm q (Sys.unit r) (Sys.unit c) * δa c := by
  obtain ⟨i, k, i1, hi, hk, rfl⟩ := h.cover hr
  rw [Sys.tau_var hal hc h hq hqε dε v δv a δa fext i1 hi hk, ← sum_add_distrib,
    ← h.sum_seg (fun c => Q (s.iv i + k) c * w c + V (s.iv i + k) c * δv c
      + s.massForm q (Sys.unit (s.iv i + k)) (Sys.unit c) * δa c)]
  have e : s.arm (s.iv i + k) * δa (s.iv i + k)
      = ∑ j ∈ Ico 1 s.n, ∑ l ∈ range (s.jnv j),
        (if s.iv i + k = s.iv j + l then s.arm (s.iv i + k) else 0) * δa (s.iv j + l) := by
    rw [h.sum_seg (fun c => (if s.iv i + k = c then s.arm (s.iv i + k) else 0) * δa c), sum_eq_single (s.iv i + k)]
    · rw [if_pos rfl]
    · intro c _ hne; rw [if_neg (Ne.symm hne), zero_mul]
    · intro hn; exact absurd (mem_range.2 hr) hn
  rw [e, ← sum_add_distrib]
  apply sum_congr rfl
  intro j hj
  obtain ⟨j1, hj⟩ := mem_Ico.1 hj
  rw [← sum_add_distrib]
  apply sum_congr rfl
  intro l hl
  have hl := mem_range.1 hl
  rw [hQ.all h.par zQ (fun i j a b k l => Sys.eQ_off _ _ _ _ a b k l) i1 hi hk j1 hj hl,
    hV.all h.par zV (fun i j a b k l => Sys.eD_off _ _ a b k l) i1 hi hk j1 hj hl,
    Sys.massForm_eA h hq i1 hi hk j1 hj hl]
  ring

omit [LinearOrder K] [IsStrictOrderedRing K] [HasEps K] in
theorem MinOk.mirror (h : s.Packed) {Mi : ℕ → ℕ → K} (hMi : MinOk s q Mi) :
    InverseOf s.nv (fun r c => s.massForm q (Sys.unit r) (Sys.unit c)) (mirrorUpper s.nv Mi) := by
  intro r hr c hcv
  obtain ⟨i1, i2⟩ := hMi.inverse h r hr c hcv
  exact ⟨i1 ▸ sum_congr rfl fun k hk => by rw [mirrorUpper_eq _ _ (mem_range.1 hk)],
    i2 ▸ sum_congr rfl fun k _ => by rw [mirrorUpper_eq _ _ hr]⟩

/-- from the matrices of the inverse dynamics and the inverse of the inertia matrix -/
theorem fwdDer_of (h : s.Packed) (hal : s.Along sε q w dq) (hc : s.ConstS sε) (hq : s.At q)
    (hqε : sε.At (perturb q dq)) (hR : s.Regular q) {v tau ddq : ℕ → K} {fext : ℕ → Force K} {Q V Q0 V0 Mi : ℕ → ℕ → K}
    (hQ : RowC s (s.eQ q v ddq fext) Q0 1 Q) (hV : RowC s (s.eD q v) V0 1 V) (zQ : s.BranchZero Q0)
    (zV : s.BranchZero V0) (hMi : MinOk s q Mi)
    (hpow : ∀ w, s.dotv w tau = (∑ i ∈ Ico 1 s.n, (s.V q w i).dot (s.F (-s.grav) q v ddq i - fext i))
      + s.dotv w (fun r => s.arm r * ddq r)) :
    IsFwdDer s sε q w dq v tau fext ddq (negMul s.nv (mirrorUpper s.nv Mi) Q)
      (negMul s.nv (mirrorUpper s.nv Mi) V) (mirrorUpper s.nv Mi) := by
  have hI := hMi.mirror h
  generalize mirrorUpper s.nv Mi = P at hI
  refine ⟨fun dε δv δτ a => ?_⟩
  have ea : a = perturb (fun r => (a r).fst) (fun r => (a r).snd) := by
    funext r; unfold perturb; exact TrivSqZeroExt.ext (by simp) (by simp)
  have hbase : ∀ r < s.nv, (rneaFext s Data.zero q v ddq fext).tau r = tau r := by
    intro r hr
    have e := rneaFext_power h.wf Data.zero hq v ddq fext (Sys.unit r)
    rw [← hpow, Sys.dotv_unit hr, Sys.dotv_unit hr] at e
    exact e
  have hsum : ∀ r, (∑ c ∈ range s.nv, (negMul s.nv P Q r c * w c + negMul s.nv P V r c * δv c + P r c * δτ c))
      = ∑ c ∈ range s.nv, P r c * (δτ c - ∑ k ∈ range s.nv, (Q c k * w k + V c k * δv k)) := by
    intro r
    rw [sum_add_distrib, sum_add_distrib, negMul_apply, negMul_apply, ← sum_neg_distrib, ← sum_neg_distrib,
      ← sum_add_distrib, ← sum_add_distrib]
    refine sum_congr rfl fun c _ => ?_
    rw [sum_add_distrib]; ring
  have hcong : ∀ {b : ℕ → K[ε]}, (∀ r < s.nv, a r = b r) → ∀ r < s.nv,
      (rneaFext sε dε (perturb q dq) (perturb v δv) a (fun i => (fext i).map inl)).tau r
      = (rneaFext sε dε (perturb q dq) (perturb v δv) b (fun i => (fext i).map inl)).tau r := by
    intro b hab r hr
    exact rneaFext_congr (hal.wfε h) dε dε hqε _ _ (by rw [hal.nv]; exact hab) (by rw [hal.nv]; exact hr)
  have hvar := fun (δa : ℕ → K) r (hr : r < s.nv) => tau_var_rows h hal hc hq hqε dε v δv ddq δa fext hQ hV zQ zV hr
  constructor
  · intro hτ
    have h1 : ∀ r < s.nv, (a r).fst = ddq r := by
      intro r hr
      have e1 : ∀ c < s.nv, (rneaFext s Data.zero q v (fun r => (a r).fst) fext).tau c
          = (rneaFext s Data.zero q v ddq fext).tau c := by
        intro c hcv
        rw [hbase c hcv, ← Sys.tau_fst hal hc h hq hqε dε Data.zero v δv _ (fun r => (a r).snd) fext hcv, ← ea,
          hτ c hcv]
        simp [perturb]
      exact rneaFext_inj h hq hR e1 hr
    have h2 : ∀ r < s.nv, a r = perturb ddq (fun r => (a r).snd) r := by
      intro r hr
      unfold perturb
      exact TrivSqZeroExt.ext (by simp [h1 r hr]) (by simp)
    have h3 : ∀ r < s.nv, (a r).snd = ∑ c ∈ range s.nv, P r c
        * (δτ c - ∑ k ∈ range s.nv, (Q c k * w k + V c k * δv k)) := by
      rw [← hI.solve (fun r => (a r).snd) (fun c => δτ c - ∑ k ∈ range s.nv, (Q c k * w k + V c k * δv k))]
      intro r hr
      have e1 := hvar (fun r => (a r).snd) r hr
      have e0 := (hcong h2 r hr).symm.trans (hτ r hr)
      have e2 : (perturb tau δτ r).snd = δτ r := by simp [perturb]
      have e3 := (e1.symm.trans (congrArg snd e0)).trans e2
      exact eq_sub_of_add_eq' e3
    intro r hr
    rw [h2 r hr]
    unfold perturb
    exact congrArg (fun x => inl (ddq r) + inr x) ((h3 r hr).trans (hsum r).symm)
  · intro ha r hr
    rw [hcong ha r hr]
    apply TrivSqZeroExt.ext
    · rw [Sys.tau_fst hal hc h hq hqε dε Data.zero v δv _ _ fext hr, hbase r hr]
      simp [perturb]
    · rw [hvar _ r hr, (hI.solve _ (fun r => δτ r - ∑ k ∈ range s.nv, (Q r k * w k + V r k * δv k))).2
        (fun r _ => hsum r) r hr]
      simp [perturb]

/-- from the state before the last pass -/
theorem abaDer_core (h : s.Packed) (hf : s.Full) (hcr : crbaCheck s.par s.n = true) (hm : s.MassesOk)
    (hal : s.Along sε q w dq) (hc : s.ConstS sε) (hq : s.At q) (hqε : sε.At (perturb q dq)) (hR : s.Regular q)
    {v tau : ℕ → K} {fext : ℕ → Force K} {e : Data K} (hM : Mid s q v tau fext e) (zQ : s.BranchZero e.dtau_dq)
    (zD : s.BranchZero e.dtau_dv) (M0 : ℕ → ℕ → K) :
    let x := abaDerEnd s M0 (bwd (abaDerBwd2 s) s.n e)
    IsFwdDer s sε q w dq v tau fext x.1.ddq x.2.dq x.2.dv x.2.dtau ∧ (s.BranchZero x.1.dtau_dq) ∧
      (s.BranchZero x.1.dtau_dv) ∧ x.1.ddq = e.ddq := by
  obtain ⟨-, c2, c3, c4, c5⟩ := abaDerBwd2_ok h hf ((crbaCheck_iff h.par).1 hcr) hm hM.ok
  intro x
  have eddq : x.1.ddq = e.ddq := c5
  refine ⟨?_, ?_, ?_, eddq⟩
  · rw [eddq]
    refine fwdDer_of h hal hc hq hqε hR c2 c3 zQ zD ?_ hM.power
    rw [c4]; exact hM.inv
  · intro i j i1 hi j1 hj n1 n2 k hk l hl
    exact (c2.other i i1 hi k hk j j1 hj n1 n2 l hl).trans (zQ i j i1 hi j1 hj n1 n2 k hk l hl)
  · intro i j i1 hi j1 hj n1 n2 k hk l hl
    exact (c3.other i i1 hi k hk j j1 hj n1 n2 l hl).trans (zD i j i1 hi j1 hj n1 n2 k hk l hl)

/-! ## the first passes -/

/-- fields that the first three passes do not write -/
def SameDer (d e : Data K) : Prop := e.dtau_dq = d.dtau_dq ∧ e.dtau_dv = d.dtau_dv

omit [LinearOrder K] [IsStrictOrderedRing K] [HasEps K] in
theorem fwd1_fields (v : ℕ → K) (i : ℕ) (d : Data K) : SameDer d (abaWorldFwd1 s q v i d) ∧
    (abaWorldFwd1 s q v i d).Minv = d.Minv := by
  unfold abaWorldFwd1 SameDer
  by_cases hp : s.par i > 0
  · simp only [hp, if_true, and_self]
  · simp only [hp, if_false, and_self]

omit [LinearOrder K] [IsStrictOrderedRing K] [HasEps K] in
theorem bwd1_fields (i : ℕ) (d : Data K) : SameDer d (abaDerBwd1 s i d) := by
  unfold abaDerBwd1 SameDer
  dsimp only
  rw [minvRows_eq]
  by_cases hp : s.par i > 0
  · simp only [hp, if_true, and_self]
  · simp only [hp, if_false, and_self]

omit [LinearOrder K] [IsStrictOrderedRing K] [HasEps K] in
theorem fwd2_fields (i : ℕ) (d : Data K) : SameDer d (abaDerFwd2 s i d) := by
  rw [abaDerFwd2_pre, abaDerCols_eq]
  unfold preCols SameDer
  dsimp only
  rw [minvFwd2_eq]
  exact ⟨rfl, rfl⟩

omit [LinearOrder K] [IsStrictOrderedRing K] [HasEps K] in
theorem fwd2Opt_fields (i : ℕ) (d : Data K) : SameDer d (abaDerFwd2Opt s i d) := by
  unfold abaDerFwd2Opt SameDer
  dsimp only
  rw [abaDerCols_eq, minvFwd2_eq]
  exact ⟨rfl, rfl⟩

omit [IsStrictOrderedRing K] in
/-- the state before the last pass -/
theorem abaDer_mid (h : s.Packed) (hcr : crbaCheck s.par s.n = true) (hq : s.At q) (hR : s.Regular q) (d : Data K)
    (v tau : ℕ → K) (fext : ℕ → Force K) (o : AbaDer K) :
    ∃ e : Data K, computeABADerivativesFext s d q v tau fext o = abaDerEnd s d.Minv (bwd (abaDerBwd2 s) s.n e) ∧
      Mid s q v tau fext e ∧ SameDer d e := by
  have hcm := (crbaCheck_iff h.par).1 hcr
  set d0 : Data K := { d with oa_gf := upd d.oa_gf 0 (-s.grav), u := tau, Minv := zeroUpper s.nv o.dtau } with hd0
  set st1 := fun i (d : Data K) =>
    let d := abaWorldFwd1 s q v i d
    { d with of := upd d.of i (d.of i - (d.oMi i).actF (fext i)) } with hst1
  set d1 := fwd st1 s.n d0 with hd1
  have a1 : AW1 s q v (s.obf q v fext) tau s.n d1 :=
    abaWorldFext_aw1 h hq v tau fext (d := d0) (upd_self d.oa_gf 0 _) rfl
  have b1 : AwB s q v d1 := awB_fwd1 h (fun i d => upd (abaWorldFwd1 s q v i d).of i
    ((abaWorldFwd1 s q v i d).of i - ((abaWorldFwd1 s q v i d).oMi i).actF (fext i))) d0 a1
  have k1 : SameDer d d1 ∧ d1.Minv = d0.Minv :=
    fwd_ind (step := st1) (n := s.n) (d := d0) (P := fun _ (e : Data K) => SameDer d e ∧ e.Minv = d0.Minv) h.par.1
      ⟨⟨rfl, rfl⟩, rfl⟩ (by
        rintro i e _ _ ⟨⟨x1, x2⟩, x3⟩
        obtain ⟨⟨y1, y2⟩, y3⟩ := fwd1_fields (s := s) (q := q) v i e
        exact ⟨⟨y1.trans x1, y2.trans x2⟩, y3.trans x3⟩)
  set d1' : Data K := { d1 with Fcrb := upd d1.Fcrb 0 (fun _ => 0) } with hd1'
  set st2 := fun i (d : Data K) =>
    let d := abaDerFwd2 s i d
    { d with of := upd d.of i (d.of i - (d.oMi i).actF (fext i)) } with hst2
  have a1' : AW1 s q v (s.obf q v fext) tau s.n d1' := ⟨a1.1, a1.2, a1.3, a1.4, a1.5, a1.6, a1.7, a1.8⟩
  refine ⟨fwd st2 s.n (bwd (abaDerBwd1 s) s.n d1'), ?_, ?_, ?_⟩
  · have e1 : (fun i (d : Data K) =>
        let d := abaDerFwd1 s q v i d
        { d with of := upd d.of i (d.of i - (d.oMi i).actF (fext i)) }) = st1 := by
      funext i d; simp only [hst1, abaDerFwd1_eq]
    unfold computeABADerivativesFext
    dsimp only
    rw [e1]
  · exact mid_ok h hcm hq hR a1' (b1.congr rfl rfl rfl rfl rfl rfl) (M := o.dtau) k1.2 (upd_self d1.Fcrb 0 _)
  · have k2 : SameDer d (bwd (abaDerBwd1 s) s.n d1') :=
      bwd_ind (step := abaDerBwd1 s) (n := s.n) (d := d1') (P := fun _ (e : Data K) => SameDer d e) h.par.1 k1.1 (by
        rintro i e _ _ ⟨x1, x2⟩
        obtain ⟨y1, y2⟩ := bwd1_fields (s := s) i e
        exact ⟨y1.trans x1, y2.trans x2⟩)
    exact fwd_ind (step := st2) (n := s.n) (d := bwd (abaDerBwd1 s) s.n d1') (P := fun _ (e : Data K) => SameDer d e)
      h.par.1 k2 (by
        rintro i e _ _ ⟨x1, x2⟩
        obtain ⟨y1, y2⟩ := fwd2_fields (s := s) i e
        exact ⟨y1.trans x1, y2.trans x2⟩)

omit [IsStrictOrderedRing K] in
/-- without external forces the other overload does the same -/
theorem abaDer_nofext (d : Data K) (v tau : ℕ → K) (o : AbaDer K) :
    computeABADerivatives s d q v tau o = computeABADerivativesFext s d q v tau (fun _ => 0) o := by
  have e1 : (fun i (d : Data K) =>
      let d := abaDerFwd1 s q v i d
      { d with of := upd d.of i (d.of i - (d.oMi i).actF 0) }) = abaDerFwd1 s q v := by
    funext i d; exact of_sub_zero _ _
  have e2 : (fun i (d : Data K) =>
      let d := abaDerFwd2 s i d
      { d with of := upd d.of i (d.of i - (d.oMi i).actF 0) }) = abaDerFwd2 s := by
    funext i d; exact of_sub_zero _ _
  unfold computeABADerivatives computeABADerivativesFext
  dsimp only
  rw [e1, e2]

omit [IsStrictOrderedRing K] in
theorem abaDer_nofextOpt (d : Data K) (o : AbaDer K) :
    computeABADerivativesNoUpdate s d o = computeABADerivativesNoUpdateFext s d (fun _ => 0) o := by
  unfold computeABADerivativesNoUpdate computeABADerivativesNoUpdateFext
  dsimp only
  have e2 : (fun i (d : Data K) =>
      let d := abaDerFwd2Opt s i d
      { d with of := upd d.of i (d.of i - (d.oMi i).actF 0) }) = abaDerFwd2Opt s := by
    funext i d; exact of_sub_zero _ _
  rw [e2]

omit [IsStrictOrderedRing K] in
/-- the state before the last pass, when `aba` has been called -/
theorem abaDer_midOpt (h : s.Packed) (hcr : crbaCheck s.par s.n = true) (hq : s.At q) (hR : s.Regular q)
    (v tau : ℕ → K) (fext : ℕ → Force K) (o : AbaDer K) {d1 d0 : Data K}
    (hd : AW1 s q v (s.obf q v fext) tau s.n d1) (hb : AwB s q v d0)
    (hj : d0.joints = (abaWorldRest s d1).joints) (hJ : d0.J = d1.J) (hoa : d0.oa_gf = (abaWorldRest s d1).oa_gf)
    (hddq : d0.ddq = (abaWorldRest s d1).ddq) :
    ∃ e : Data K, computeABADerivativesNoUpdateFext s d0 fext o = abaDerEnd s d0.Minv (bwd (abaDerBwd2 s) s.n e) ∧
      Mid s q v tau fext e ∧ SameDer d0 e ∧ e.ddq = d0.ddq := by
  have hcm := (crbaCheck_iff h.par).1 hcr
  obtain ⟨m1, m2⟩ := midOpt_ok h hcm hq hR hd hb hj hJ hoa hddq o.dtau
  refine ⟨_, rfl, m1, ?_, m2⟩
  set d0' : Data K := { d0 with Minv := zeroUpper s.nv o.dtau, Fcrb := upd d0.Fcrb 0 (fun _ => 0) }
  have k2 : SameDer d0 (bwd (minvRows s) s.n d0') :=
    bwd_ind (step := minvRows s) (n := s.n) (d := d0') (P := fun _ (e : Data K) => SameDer d0 e) h.par.1 ⟨rfl, rfl⟩ (by
      rintro i e _ _ ih
      rw [minvRows_eq]; exact ih)
  exact fwd_ind (step := _) (n := s.n) (d := bwd (minvRows s) s.n d0') (P := fun _ (e : Data K) => SameDer d0 e)
    h.par.1 k2 (by
      rintro i e _ _ ⟨x1, x2⟩
      obtain ⟨y1, y2⟩ := fwd2Opt_fields (s := s) i e
      exact ⟨y1.trans x1, y2.trans x2⟩)

omit [LinearOrder K] [IsStrictOrderedRing K] [HasEps K] in
/-- what the passes of `aba` after the first do not write -/
theorem abaWorldRest_keep (hp : ParOk s.par s.n) (d : Data K) :
    let e := abaWorldRest s d
    e.J = d.J ∧ e.oMi = d.oMi ∧ e.ov = d.ov ∧ e.oinertias = d.oinertias ∧ e.oYcrb = d.oYcrb ∧ e.oh = d.oh ∧
      SameDer d e := by
  have k := bwd_ind (step := abaWorldBwd s) (n := s.n) (d := d) (P := fun _ (e : Data K) => e.J = d.J ∧ e.oMi = d.oMi ∧
      e.ov = d.ov ∧ e.oinertias = d.oinertias ∧ e.oYcrb = d.oYcrb ∧ e.oh = d.oh ∧ SameDer d e) hp.1
      ⟨rfl, rfl, rfl, rfl, rfl, rfl, rfl, rfl⟩ (by
        rintro i e _ _ ih
        unfold abaWorldBwd
        by_cases hz : s.par i > 0
        · simp only [hz, if_true]; exact ih
        · simp only [hz, if_false]; exact ih)
  exact fwd_ind (step := abaWorldFwd2 s) (n := s.n) (d := bwd (abaWorldBwd s) s.n d)
    (P := fun _ (e : Data K) => e.J = d.J ∧ e.oMi = d.oMi ∧
      e.ov = d.ov ∧ e.oinertias = d.oinertias ∧ e.oYcrb = d.oYcrb ∧ e.oh = d.oh ∧ SameDer d e) hp.1 k
    (fun i e _ _ ih => ih)

omit [LinearOrder K] [IsStrictOrderedRing K] [HasEps K] in
theorem abaWorldEnd_keep (hp : ParOk s.par s.n) (d : Data K) :
    bwd (abaWorldEnd s) s.n d = { d with of := (bwd (abaWorldEnd s) s.n d).of } :=
  bwd_ind (step := abaWorldEnd s) (n := s.n) (d := d) (P := fun _ (e : Data K) => e = { d with of := e.of }) hp.1 rfl (by
    intro i e _ _ ih
    unfold abaWorldEnd
    rw [ih])

end Pin
